import Mathlib.Algebra.Group.Basic
import Mathlib.Data.List.Basic
import Mathlib.Data.List.Forall2
import Mathlib.Tactic.Abel
import Mathlib.Tactic.NormNum

/-!
# CMDAnalyzer: magnitudes and colours to a table of bands (astropysics/phot.py 1147-1217)

`_dataAndBandsToDicts` takes a sequence of band or colour names and one row of numbers for each of them, and fills
in a table of magnitudes per band.  Both the fiducial sequence (constructor) and the data (`setData`) go through it.
The three dictionaries `bd`, `datad`, `maskd` always have the same keys, so the model keeps one table.
-/

namespace Verif.CmdTables

/-- One element of `bandsin`, phot.py 1166-1180.  The text of a colour `"b1-b2"` is given already split at `-` and
stripped; `badColor` is a text with more than one `-` (the unpacking at line 1198 then fails), `other` is an object
without `name`. -/
inductive Spec
  | band (n : String)
  | color (b1 b2 : String)
  | badColor
  | other
deriving DecidableEq, Repr

inductive Err
  | value | key
deriving DecidableEq, Repr

/-- The warnings of lines 1208 and 1211. -/
inductive Warn
  | over (b1 b2 : String)
  | under (b1 b2 : String)
deriving DecidableEq, Repr

variable {K : Type} [AddCommGroup K]

/-- One entry of the tables: `datad[b]`, `maskd[b]`. -/
structure Entry (K : Type) where
  data : List K
  mask : Bool
deriving DecidableEq, Repr

/-- The table, as the function from keys (`bd`, `datad`, `maskd`). -/
abbrev Table (K : Type) := List (String × Entry K)

/-- Python dictionary lookup. -/
def look (t : Table K) (b : String) : Option (Entry K) := t.lookup b

/-- Python dictionary assignment (a new binding hides the older one). -/
def put (t : Table K) (b : String) (e : Entry K) : Table K := (b, e) :: t

/-- Lines 1166-1180: the names are looked at in order; `bands[b]` is a `KeyError` for an unknown band. -/
def checkNames (known : String → Bool) : List Spec → Except Err Unit
  | [] => .ok ()
  | .band n :: r => if known n then checkNames known r else .error .key
  | .color _ _ :: r => checkNames known r
  | .badColor :: r => checkNames known r
  | .other :: _ => .error .value

/-- Lines 1182-1194: the direct measurements. -/
def putBands : List (Spec × List K) → Table K → Table K
  | [], t => t
  | (.band n, row) :: r, t => putBands r (put t n ⟨row, true⟩)
  | (.color _ _, _) :: r, t => putBands r t
  | (.badColor, _) :: r, t => putBands r t
  | (.other, _) :: r, t => putBands r t

/-- One colour, lines 1198-1216. -/
def colorStep (known : String → Bool) (b1 b2 : String) (row : List K) (t : Table K) :
    Except Err (Table K × List Warn) :=
  match look t b1, look t b2 with
  | some e1, none =>
    if known b2 then .ok (put t b2 ⟨List.zipWith (· - ·) e1.data row, true⟩, []) else .error .key
  | none, some e2 =>
    if known b1 then .ok (put t b1 ⟨List.zipWith (· + ·) row e2.data, true⟩, []) else .error .key
  | some _, some _ => .ok (t, [.over b1 b2])
  | none, none =>
    if known b1 && known b2 then
      .ok (put (put t b1 ⟨List.replicate row.length 0, false⟩) b2 ⟨row.map (fun x => -x), true⟩, [.under b1 b2])
    else .error .key

/-- Lines 1196-1216: the colours, in the order given. -/
def putColors (known : String → Bool) : List (Spec × List K) → Table K → Except Err (Table K × List Warn)
  | [], t => .ok (t, [])
  | (.color b1 b2, row) :: r, t =>
    match colorStep known b1 b2 row t with
    | .error e => .error e
    | .ok (t', w) =>
      match putColors known r t' with
      | .error e => .error e
      | .ok (t'', w') => .ok (t'', w ++ w')
  | (.band _, _) :: r, t => putColors known r t
  | (.badColor, _) :: _, _ => .error .value
  | (.other, _) :: r, t => putColors known r t

/-- `_dataAndBandsToDicts(bandsin, arr)`, phot.py 1155-1218. -/
def toDicts (known : String → Bool) (specs : List Spec) (rows : List (List K)) :
    Except Err (Table K × List Warn) :=
  if specs.length ≠ rows.length then .error .value
  else match checkNames known specs with
    | .error e => .error e
    | .ok _ => putColors known (specs.zip rows) (putBands (specs.zip rows) [])

/-! ## Specification -/

/-- The element `s` of the input describes, for the true magnitudes `m`, the row `row`. -/
def Describes (m : String → List K) : Spec → List K → Prop
  | .band n, row => row = m n
  | .color b1 b2, row => row = List.zipWith (· - ·) (m b1) (m b2)
  | .badColor, _ => True
  | .other, _ => True

/-- The row found for band `b`. -/
def dataOf (t : Table K) (b : String) : Option (List K) := (look t b).map Entry.data

/-- Some warning says that a colour was underdetermined. -/
def HasUnder (w : List Warn) : Prop := ∃ b1 b2, Warn.under b1 b2 ∈ w

/-! ## Lemmas -/

theorem look_put (t : Table K) (b c : String) (e : Entry K) :
    look (put t b e) c = if c = b then some e else look t c := by
  unfold look put
  rw [List.lookup_cons]
  by_cases h : c = b
  · simp [h]
  · have : (c == b) = false := by simpa using h
    rw [this, if_neg h]

theorem look_put_self (t : Table K) (b : String) (e : Entry K) : look (put t b e) b = some e := by
  rw [look_put, if_pos rfl]

theorem look_put_ne (t : Table K) (b c : String) (e : Entry K) (h : c ≠ b) : look (put t b e) c = look t c := by
  rw [look_put, if_neg h]

theorem zip_sub_cancel : ∀ (a b : List K), a.length = b.length →
    List.zipWith (· - ·) a (List.zipWith (· - ·) a b) = b
  | [], [], _ => rfl
  | x :: a, y :: b, h => by
    have := zip_sub_cancel a b (by simpa using h)
    simp [this]

theorem zip_add_cancel : ∀ (a b : List K), a.length = b.length →
    List.zipWith (· + ·) (List.zipWith (· - ·) a b) b = a
  | [], [], _ => rfl
  | x :: a, y :: b, h => by
    have := zip_add_cancel a b (by simpa using h)
    simp [this]

theorem zip_add_sub : ∀ (a b : List K), a.length = b.length →
    List.zipWith (· - ·) (List.zipWith (· + ·) a b) b = a
  | [], [], _ => rfl
  | x :: a, y :: b, h => by
    have := zip_add_sub a b (by simpa using h)
    simp [this]

theorem zip_zero_neg : ∀ (a : List K),
    List.zipWith (· - ·) (List.replicate a.length 0) (a.map (fun x => -x)) = a
  | [] => rfl
  | x :: a => by simpa [List.replicate_succ] using zip_zero_neg a

/-- A single colour leaves every band that is already there as it was. -/
theorem colorStep_keep (known : String → Bool) (b1 b2 : String) (row : List K) (t t' : Table K) (w : List Warn)
    (h : colorStep known b1 b2 row t = .ok (t', w)) (b : String) (e : Entry K) (hb : look t b = some e) :
    look t' b = some e := by
  unfold colorStep at h
  cases h1 : look t b1 with
  | none =>
    cases h2 : look t b2 with
    | none =>
      rw [h1, h2] at h
      simp only at h
      split at h
      · cases h
        rw [look_put_ne, look_put_ne]
        · exact hb
        · intro hc; subst hc; rw [h1] at hb; cases hb
        · intro hc; subst hc; rw [h2] at hb; cases hb
      · cases h
    | some e2 =>
      rw [h1, h2] at h
      simp only at h
      split at h
      · cases h
        rw [look_put_ne]
        · exact hb
        · intro hc; subst hc; rw [h1] at hb; cases hb
      · cases h
  | some e1 =>
    cases h2 : look t b2 with
    | none =>
      rw [h1, h2] at h
      simp only at h
      split at h
      · cases h
        rw [look_put_ne]
        · exact hb
        · intro hc; subst hc; rw [h2] at hb; cases hb
      · cases h
    | some e2 =>
      rw [h1, h2] at h
      cases h
      exact hb

theorem putColors_keep (known : String → Bool) : ∀ (l : List (Spec × List K)) (t t' : Table K) (w : List Warn),
    putColors known l t = .ok (t', w) → ∀ (b : String) (e : Entry K), look t b = some e → look t' b = some e
  | [], t, t', w, h, b, e, hb => by cases h; exact hb
  | (.color b1 b2, row) :: r, t, t', w, h, b, e, hb => by
    unfold putColors at h
    cases hs : colorStep known b1 b2 row t with
    | error e => rw [hs] at h; cases h
    | ok p =>
      obtain ⟨u, w1⟩ := p
      rw [hs] at h
      simp only at h
      cases hr : putColors known r u with
      | error e => rw [hr] at h; cases h
      | ok q =>
        obtain ⟨u', w2⟩ := q
        rw [hr] at h
        cases h
        exact putColors_keep known r u _ _ hr b e (colorStep_keep known b1 b2 row t u w1 hs b e hb)
  | (.band _, _) :: r, t, t', w, h, b, e, hb => putColors_keep known r t t' w h b e hb
  | (.badColor, _) :: _, _, _, _, h, _, _, _ => by cases h
  | (.other, _) :: r, t, t', w, h, b, e, hb => putColors_keep known r t t' w h b e hb

/-- After one colour both its bands are there, and unless the colour was redundant their difference is the colour. -/
theorem colorStep_diff (known : String → Bool) (b1 b2 : String) (row : List K) (t t' : Table K) (w : List Warn)
    (h : colorStep known b1 b2 row t = .ok (t', w)) (hne : b1 ≠ b2)
    (hlen : ∀ b e, look t b = some e → e.data.length = row.length) :
    ∃ e1 e2, look t' b1 = some e1 ∧ look t' b2 = some e2 ∧
      (Warn.over b1 b2 ∉ w → List.zipWith (· - ·) e1.data e2.data = row) := by
  unfold colorStep at h
  cases h1 : look t b1 with
  | none =>
    cases h2 : look t b2 with
    | none =>
      rw [h1, h2] at h
      simp only at h
      split at h
      · cases h
        exact ⟨⟨List.replicate row.length 0, false⟩, _, by rw [look_put_ne _ _ _ _ hne, look_put_self],
          look_put_self _ _ _, fun _ => zip_zero_neg row⟩
      · cases h
    | some e2 =>
      rw [h1, h2] at h
      simp only at h
      split at h
      · cases h
        refine ⟨_, e2, look_put_self _ _ _, ?_, fun _ => zip_add_sub row e2.data (hlen _ _ h2).symm⟩
        rw [look_put_ne _ _ _ _ (Ne.symm hne), h2]
      · cases h
  | some e1 =>
    cases h2 : look t b2 with
    | none =>
      rw [h1, h2] at h
      simp only at h
      split at h
      · cases h
        refine ⟨e1, _, ?_, look_put_self _ _ _, fun _ => zip_sub_cancel e1.data row (hlen _ _ h1)⟩
        rw [look_put_ne _ _ _ _ hne, h1]
      · cases h
    | some e2 =>
      rw [h1, h2] at h
      cases h
      exact ⟨e1, e2, h1, h2, fun hn => absurd (List.mem_singleton.mpr rfl) hn⟩

/-- Every row of the table has `n` entries. -/
def Width (n : Nat) (t : Table K) : Prop := ∀ b e, look t b = some e → e.data.length = n

theorem colorStep_width (known : String → Bool) (b1 b2 : String) (row : List K) (t t' : Table K) (w : List Warn)
    (n : Nat) (h : colorStep known b1 b2 row t = .ok (t', w)) (hrow : row.length = n) (ht : Width n t) :
    Width n t' := by
  unfold colorStep at h
  intro b e hb
  cases h1 : look t b1 with
  | none =>
    cases h2 : look t b2 with
    | none =>
      rw [h1, h2] at h
      simp only at h
      split at h
      · cases h
        rw [look_put] at hb
        split at hb
        · cases hb; simpa using hrow
        · rw [look_put] at hb
          split at hb
          · cases hb; simpa using hrow
          · exact ht b e hb
      · cases h
    | some e2 =>
      rw [h1, h2] at h
      simp only at h
      split at h
      · cases h
        rw [look_put] at hb
        split at hb
        · cases hb; simp [hrow, ht b2 e2 h2]
        · exact ht b e hb
      · cases h
  | some e1 =>
    cases h2 : look t b2 with
    | none =>
      rw [h1, h2] at h
      simp only at h
      split at h
      · cases h
        rw [look_put] at hb
        split at hb
        · cases hb; simp [hrow, ht b1 e1 h1]
        · exact ht b e hb
      · cases h
    | some e2 =>
      rw [h1, h2] at h
      cases h
      exact ht b e hb

theorem putBands_width (n : Nat) : ∀ (l : List (Spec × List K)) (t : Table K), (∀ p ∈ l, p.2.length = n) →
    Width n t → Width n (putBands l t)
  | [], _, _, ht => ht
  | (.band b, row) :: r, t, h, ht => by
    refine putBands_width n r _ (fun p hp => h p (List.mem_cons_of_mem _ hp)) ?_
    intro c e hc
    rw [look_put] at hc
    split at hc
    · cases hc; exact h (.band b, row) List.mem_cons_self
    · exact ht c e hc
  | (.color _ _, _) :: r, t, h, ht => putBands_width n r t (fun p hp => h p (List.mem_cons_of_mem _ hp)) ht
  | (.badColor, _) :: r, t, h, ht => putBands_width n r t (fun p hp => h p (List.mem_cons_of_mem _ hp)) ht
  | (.other, _) :: r, t, h, ht => putBands_width n r t (fun p hp => h p (List.mem_cons_of_mem _ hp)) ht

theorem putColors_width (known : String → Bool) (n : Nat) : ∀ (l : List (Spec × List K)) (t t' : Table K)
    (w : List Warn), putColors known l t = .ok (t', w) → (∀ p ∈ l, p.2.length = n) → Width n t → Width n t'
  | [], t, t', w, h, _, ht => by cases h; exact ht
  | (.color b1 b2, row) :: r, t, t', w, h, hl, ht => by
    unfold putColors at h
    cases hs : colorStep known b1 b2 row t with
    | error e => rw [hs] at h; cases h
    | ok p =>
      obtain ⟨u, w1⟩ := p
      rw [hs] at h
      simp only at h
      cases hr : putColors known r u with
      | error e => rw [hr] at h; cases h
      | ok q =>
        obtain ⟨u', w2⟩ := q
        rw [hr] at h
        cases h
        exact putColors_width known n r u _ _ hr (fun p hp => hl p (List.mem_cons_of_mem _ hp))
          (colorStep_width known b1 b2 row t u w1 n hs (hl _ List.mem_cons_self) ht)
  | (.band _, _) :: r, t, t', w, h, hl, ht =>
    putColors_width known n r t t' w h (fun p hp => hl p (List.mem_cons_of_mem _ hp)) ht
  | (.badColor, _) :: _, _, _, _, h, _, _ => by cases h
  | (.other, _) :: r, t, t', w, h, hl, ht =>
    putColors_width known n r t t' w h (fun p hp => hl p (List.mem_cons_of_mem _ hp)) ht

theorem putColors_color (known : String → Bool) (n : Nat) (b1 b2 : String) (row : List K) (hne : b1 ≠ b2) :
    ∀ (l : List (Spec × List K)) (t t' : Table K) (w : List Warn), putColors known l t = .ok (t', w) →
      (∀ p ∈ l, p.2.length = n) → Width n t → (Spec.color b1 b2, row) ∈ l → Warn.over b1 b2 ∉ w →
      ∃ e1 e2, look t' b1 = some e1 ∧ look t' b2 = some e2 ∧ List.zipWith (· - ·) e1.data e2.data = row
  | [], _, _, _, _, _, _, hm, _ => by cases hm
  | (.color c1 c2, row') :: r, t, t', w, h, hl, ht, hm, hw => by
    unfold putColors at h
    cases hs : colorStep known c1 c2 row' t with
    | error e => rw [hs] at h; cases h
    | ok p =>
      obtain ⟨u, w1⟩ := p
      rw [hs] at h
      simp only at h
      cases hr : putColors known r u with
      | error e => rw [hr] at h; cases h
      | ok q =>
        obtain ⟨u', w2⟩ := q
        rw [hr] at h
        cases h
        have hlen : row'.length = n := hl _ List.mem_cons_self
        rcases List.mem_cons.1 hm with hm | hm
        · cases hm
          obtain ⟨e1, e2, h1, h2, hd⟩ := colorStep_diff known b1 b2 row t u w1 hs hne
            (fun b e hb => (ht b e hb).trans hlen.symm)
          exact ⟨e1, e2, putColors_keep known r u _ _ hr _ _ h1, putColors_keep known r u _ _ hr _ _ h2,
            hd (fun hc => hw (List.mem_append_left _ hc))⟩
        · exact putColors_color known n b1 b2 row hne r u _ _ hr
            (fun p hp => hl p (List.mem_cons_of_mem _ hp)) (colorStep_width known c1 c2 row' t u w1 n hs hlen ht) hm
            (fun hc => hw (List.mem_append_right _ hc))
  | (.band _, _) :: r, t, t', w, h, hl, ht, hm, hw => by
    rcases List.mem_cons.1 hm with hm | hm
    · cases hm
    · exact putColors_color known n b1 b2 row hne r t t' w h (fun p hp => hl p (List.mem_cons_of_mem _ hp)) ht hm hw
  | (.badColor, _) :: _, _, _, _, h, _, _, _, _ => by cases h
  | (.other, _) :: r, t, t', w, h, hl, ht, hm, hw => by
    rcases List.mem_cons.1 hm with hm | hm
    · cases hm
    · exact putColors_color known n b1 b2 row hne r t t' w h (fun p hp => hl p (List.mem_cons_of_mem _ hp)) ht hm hw

theorem putBands_keep (b : String) : ∀ (l : List (Spec × List K)) (t : Table K), (∀ row, (Spec.band b, row) ∉ l) →
    look (putBands l t) b = look t b
  | [], _, _ => rfl
  | (.band c, row) :: r, t, h => by
    have hc : b ≠ c := fun hc => h row (by rw [hc]; exact List.mem_cons_self)
    show look (putBands r (put t c ⟨row, true⟩)) b = _
    rw [putBands_keep b r _ (fun row hm => h row (List.mem_cons_of_mem _ hm)), look_put_ne _ _ _ _ hc]
  | (.color _ _, _) :: r, t, h => putBands_keep b r t (fun row hm => h row (List.mem_cons_of_mem _ hm))
  | (.badColor, _) :: r, t, h => putBands_keep b r t (fun row hm => h row (List.mem_cons_of_mem _ hm))
  | (.other, _) :: r, t, h => putBands_keep b r t (fun row hm => h row (List.mem_cons_of_mem _ hm))

theorem putBands_append : ∀ (l r : List (Spec × List K)) (t : Table K),
    putBands (l ++ r) t = putBands r (putBands l t)
  | [], _, _ => rfl
  | (.band b, row) :: l, r, t => putBands_append l r _
  | (.color _ _, _) :: l, r, t => putBands_append l r t
  | (.badColor, _) :: l, r, t => putBands_append l r t
  | (.other, _) :: l, r, t => putBands_append l r t

/-- The table agrees with the true magnitudes, and nothing in it is masked out. -/
def Right (m : String → List K) (t : Table K) : Prop := ∀ b e, look t b = some e → e.data = m b ∧ e.mask = true

theorem putBands_right (m : String → List K) : ∀ (l : List (Spec × List K)) (t : Table K),
    (∀ p ∈ l, Describes m p.1 p.2) → Right m t → Right m (putBands l t)
  | [], _, _, ht => ht
  | (.band b, row) :: r, t, h, ht => by
    refine putBands_right m r _ (fun p hp => h p (List.mem_cons_of_mem _ hp)) ?_
    intro c e hc
    rw [look_put] at hc
    split at hc
    · next hcb => cases hc; subst hcb; exact ⟨h (.band c, row) List.mem_cons_self, rfl⟩
    · exact ht c e hc
  | (.color _ _, _) :: r, t, h, ht => putBands_right m r t (fun p hp => h p (List.mem_cons_of_mem _ hp)) ht
  | (.badColor, _) :: r, t, h, ht => putBands_right m r t (fun p hp => h p (List.mem_cons_of_mem _ hp)) ht
  | (.other, _) :: r, t, h, ht => putBands_right m r t (fun p hp => h p (List.mem_cons_of_mem _ hp)) ht

theorem colorStep_right (known : String → Bool) (m : String → List K) (n : Nat) (hm : ∀ b, (m b).length = n)
    (b1 b2 : String) (row : List K) (t t' : Table K) (w : List Warn)
    (h : colorStep known b1 b2 row t = .ok (t', w)) (hrow : row = List.zipWith (· - ·) (m b1) (m b2))
    (ht : Right m t) (hw : Warn.under b1 b2 ∉ w) : Right m t' := by
  unfold colorStep at h
  intro b e hb
  cases h1 : look t b1 with
  | none =>
    cases h2 : look t b2 with
    | none =>
      rw [h1, h2] at h
      simp only at h
      split at h
      · cases h
        exact absurd (List.mem_singleton.mpr rfl) hw
      · cases h
    | some e2 =>
      rw [h1, h2] at h
      simp only at h
      split at h
      · cases h
        rw [look_put] at hb
        split at hb
        · next hc =>
          cases hb
          refine ⟨?_, rfl⟩
          show List.zipWith (· + ·) row e2.data = m b
          rw [hrow, (ht b2 e2 h2).1, hc, zip_add_cancel _ _ ((hm b1).trans (hm b2).symm)]
        · exact ht b e hb
      · cases h
  | some e1 =>
    cases h2 : look t b2 with
    | none =>
      rw [h1, h2] at h
      simp only at h
      split at h
      · cases h
        rw [look_put] at hb
        split at hb
        · next hc =>
          cases hb
          refine ⟨?_, rfl⟩
          show List.zipWith (· - ·) e1.data row = m b
          rw [hrow, (ht b1 e1 h1).1, hc, zip_sub_cancel _ _ ((hm b1).trans (hm b2).symm)]
        · exact ht b e hb
      · cases h
    | some e2 =>
      rw [h1, h2] at h
      cases h
      exact ht b e hb

theorem putColors_right (known : String → Bool) (m : String → List K) (n : Nat) (hm : ∀ b, (m b).length = n) :
    ∀ (l : List (Spec × List K)) (t t' : Table K) (w : List Warn), putColors known l t = .ok (t', w) →
      (∀ p ∈ l, Describes m p.1 p.2) → Right m t → ¬ HasUnder w → Right m t'
  | [], t, t', w, h, _, ht, _ => by cases h; exact ht
  | (.color b1 b2, row) :: r, t, t', w, h, hl, ht, hw => by
    unfold putColors at h
    cases hs : colorStep known b1 b2 row t with
    | error e => rw [hs] at h; cases h
    | ok p =>
      obtain ⟨u, w1⟩ := p
      rw [hs] at h
      simp only at h
      cases hr : putColors known r u with
      | error e => rw [hr] at h; cases h
      | ok q =>
        obtain ⟨u', w2⟩ := q
        rw [hr] at h
        cases h
        refine putColors_right known m n hm r u _ _ hr (fun p hp => hl p (List.mem_cons_of_mem _ hp)) ?_
          (fun ⟨x, y, hxy⟩ => hw ⟨x, y, List.mem_append_right _ hxy⟩)
        exact colorStep_right known m n hm b1 b2 row t u w1 hs (hl _ List.mem_cons_self) ht
          (fun hc => hw ⟨b1, b2, List.mem_append_left _ hc⟩)
  | (.band _, _) :: r, t, t', w, h, hl, ht, hw =>
    putColors_right known m n hm r t t' w h (fun p hp => hl p (List.mem_cons_of_mem _ hp)) ht hw
  | (.badColor, _) :: _, _, _, _, h, _, _, _ => by cases h
  | (.other, _) :: r, t, t', w, h, hl, ht, hw =>
    putColors_right known m n hm r t t' w h (fun p hp => hl p (List.mem_cons_of_mem _ hp)) ht hw

theorem toDicts_ok (known : String → Bool) (specs : List Spec) (rows : List (List K)) (t : Table K) (w : List Warn)
    (h : toDicts known specs rows = .ok (t, w)) :
    specs.length = rows.length ∧ putColors known (specs.zip rows) (putBands (specs.zip rows) []) = .ok (t, w) := by
  unfold toDicts at h
  split at h
  · cases h
  · next hl =>
    refine ⟨not_not.1 hl, ?_⟩
    split at h
    · cases h
    · exact h

theorem zip_fst_snd {α β : Type} : ∀ l : List (α × β), (l.map Prod.fst).zip (l.map Prod.snd) = l
  | [] => rfl
  | p :: l => by simp [zip_fst_snd l]

theorem right_nil (m : String → List K) : Right m [] := fun b e h => by cases h

theorem toDicts_width (known : String → Bool) (specs : List Spec) (rows : List (List K)) (n : Nat)
    (hn : ∀ r ∈ rows, r.length = n) (t : Table K) (w : List Warn) (h : toDicts known specs rows = .ok (t, w)) :
    Width n t := by
  obtain ⟨-, h⟩ := toDicts_ok known _ _ t w h
  have hl : ∀ p ∈ specs.zip rows, p.2.length = n := fun p hp => hn _ (List.of_mem_zip hp).2
  exact putColors_width known n _ _ t w h hl (putBands_width n _ _ hl (fun b e hb => by cases hb))

/-! ## Theorems (C117) -/

/-- **C117.** Directly measured bands are taken over unchanged: if the input is accepted, the row of a band that is
listed is the row given for it (the last one, if it is listed twice), and it counts as measured. -/
theorem band_kept (known : String → Bool) (pre post : List (Spec × List K)) (b : String) (row : List K)
    (hpost : ∀ r, (Spec.band b, r) ∉ post) (t : Table K) (w : List Warn)
    (h : toDicts known ((pre ++ (.band b, row) :: post).map Prod.fst) ((pre ++ (.band b, row) :: post).map Prod.snd)
      = .ok (t, w)) : look t b = some ⟨row, true⟩ := by
  obtain ⟨-, h⟩ := toDicts_ok known _ _ t w h
  rw [zip_fst_snd] at h
  refine putColors_keep known _ _ _ _ h b _ ?_
  rw [putBands_append]
  show look (putBands post (put _ b ⟨row, true⟩)) b = _
  rw [putBands_keep b post _ hpost, look_put_self]

/-- **C117.** Every colour of an accepted input is honoured, whatever else is in it and in whatever order: unless it was
reported as overdetermined, the difference of the two rows stored for its bands is the colour. -/
theorem color_kept (known : String → Bool) (specs : List Spec) (rows : List (List K)) (n : Nat)
    (hn : ∀ r ∈ rows, r.length = n) (t : Table K) (w : List Warn) (h : toDicts known specs rows = .ok (t, w))
    (b1 b2 : String) (hne : b1 ≠ b2) (row : List K) (hm : (Spec.color b1 b2, row) ∈ specs.zip rows)
    (hw : Warn.over b1 b2 ∉ w) :
    ∃ d1 d2, dataOf t b1 = some d1 ∧ dataOf t b2 = some d2 ∧ List.zipWith (· - ·) d1 d2 = row := by
  obtain ⟨-, h⟩ := toDicts_ok known _ _ t w h
  have hl : ∀ p ∈ specs.zip rows, p.2.length = n := fun p hp => hn _ (List.of_mem_zip hp).2
  obtain ⟨e1, e2, h1, h2, hd⟩ := putColors_color known n b1 b2 row hne _ _ t w h hl
    (putBands_width n _ _ hl (fun b e hb => by cases hb)) hm hw
  exact ⟨e1.data, e2.data, by rw [dataOf, h1]; rfl, by rw [dataOf, h2]; rfl, hd⟩

/-- **C117.** Soundness: if the numbers given are the magnitudes and colours of stars with magnitudes `m`, and no
warning of an underdetermined colour is issued, every row of the table is the true one and counts as measured. -/
theorem table_true (known : String → Bool) (specs : List Spec) (rows : List (List K)) (m : String → List K) (n : Nat)
    (hm : ∀ b, (m b).length = n) (hd : ∀ p ∈ specs.zip rows, Describes m p.1 p.2) (t : Table K) (w : List Warn)
    (h : toDicts known specs rows = .ok (t, w)) (hw : ¬ HasUnder w) (b : String) (e : Entry K)
    (hb : look t b = some e) : e = ⟨m b, true⟩ := by
  obtain ⟨-, h⟩ := toDicts_ok known _ _ t w h
  obtain ⟨h1, h2⟩ := putColors_right known m n hm _ _ t w h hd (putBands_right m _ _ hd (right_nil m)) hw b e hb
  cases e
  simp only at h1 h2
  rw [h1, h2]

/-- A colour whose bands are both unknown so far: the first one is set to zero and marked unmeasured, but the second one
(minus the colour) is marked as measured. -/
theorem under_second_measured (known : String → Bool) (b1 b2 : String) (hne : b1 ≠ b2) (h1 : known b1 = true)
    (h2 : known b2 = true) (row : List K) :
    toDicts known [.color b1 b2] [row] =
      .ok ([(b2, ⟨row.map (fun x => -x), true⟩), (b1, ⟨List.replicate row.length 0, false⟩)], [.under b1 b2]) := by
  simp [toDicts, checkNames, putColors, putBands, colorStep, look, put, h1, h2]

/-- The example of the constructor: colour g-r and magnitude r give g and r (a case meeting the hypotheses above). -/
example : toDicts (K := Int) (fun _ => true) [.color "g" "r", .band "r"] [[1, 2], [10, 20]] =
    .ok ([("g", ⟨[11, 22], true⟩), ("r", ⟨[10, 20], true⟩)], []) := by decide

/-- **C117, limit.** The order of the colours matters: with `g-r, r-i, i` all three magnitudes are determined, but the
table has a wrong `r` (marked as measured) and a zero `g`. -/
theorem order_matters :
    let m : String → List Int := fun b => if b = "g" then [5] else if b = "r" then [4] else [2]
    (∀ p ∈ [Spec.color "g" "r", .color "r" "i", .band "i"].zip [[1], [2], [2]], Describes m p.1 p.2) ∧
    toDicts (K := Int) (fun _ => true) [.color "g" "r", .color "r" "i", .band "i"] [[1], [2], [2]] =
      .ok ([("r", ⟨[-1], true⟩), ("g", ⟨[0], false⟩), ("i", ⟨[2], true⟩)], [.under "g" "r", .over "r" "i"]) ∧
    toDicts (K := Int) (fun _ => true) [.color "r" "i", .color "g" "r", .band "i"] [[2], [1], [2]] =
      .ok ([("g", ⟨[5], true⟩), ("r", ⟨[4], true⟩), ("i", ⟨[2], true⟩)], []) := by
  refine ⟨?_, by decide, by decide⟩
  intro p hp
  simp at hp
  rcases hp with rfl | rfl | rfl <;> simp [Describes]

/-- Without the hypothesis `b1 ≠ b2`: the "colour" `g-g` overwrites. -/
theorem self_color :
    toDicts (K := Int) (fun _ => true) [.color "g" "g"] [[3]] =
      .ok ([("g", ⟨[-3], true⟩), ("g", ⟨[0], false⟩)], [.under "g" "g"]) := by decide

/-- Numbers of rows and names that differ are rejected. -/
theorem length_checked (known : String → Bool) (specs : List Spec) (rows : List (List K))
    (h : specs.length ≠ rows.length) : toDicts known specs rows = .error .value := by
  unfold toDicts; rw [if_pos h]

end Verif.CmdTables

import Mathlib.Tactic.Positivity
import Verif.Cmd

/-!
# CMDAnalyzer: theorems (C118-C121)
-/

namespace Verif.Cmd

open Verif.CmdTables (Table Entry Spec Warn look toDicts)

/-! ## Specification -/

/-- The input of a step is a rectangular array with the number of columns that it states. -/
def OpOk : Op → Prop
  | .dataMap _ _ rows n => ∀ r ∈ rows, r.length = n
  | .dataSeq rows n => ∀ r ∈ rows, r.length = n
  | _ => True

/-- States that a user can get to: a constructor call with a rectangular fiducial array of `n` columns, and any steps. -/
inductive Reachable : Cmd → Prop
  | new (known : String → Bool) (order : Table ℝ → List String) (specs : List Spec) (rows : List (List ℝ)) (n : Nat)
      (fidname : String ⊕ List (String × List Nat)) (horder : ∀ t b, b ∈ order t ↔ (look t b).isSome)
      (hrows : ∀ r ∈ rows, r.length = n) (s : Cmd) (h : create known order specs rows n fidname = .ok s) : Reachable s
  | step (s : Cmd) (op : Op) (hop : OpOk op) (h : Reachable s) : Reachable (step s op)

/-- The magnitude of the fiducial point `j` in band `b` at distance modulus zero. -/
def fidMag (s : Cmd) (b : String) (j : Nat) : ℝ := (fidRow s b).getD j 0

/-- The magnitude of the object `k` in band `b`. -/
def objMag (s : Cmd) (b : String) (k : Nat) : ℝ := ((dataRow s b).getD []).getD k 0

/-- The distance, in one band or colour, of the fiducial point `j` moved to the distance modulus from the object `k`. -/
def away (s : Cmd) (j k : Nat) : Sel → ℝ
  | .one b => (fidMag s b j + s.dmod) - objMag s b k
  | .pair b c => ((fidMag s b j + s.dmod) - (fidMag s c j + s.dmod)) - (objMag s b k - objMag s c k)

/-- The bands of a selection. -/
def bandsOf : Sel → List String
  | .one b => [b]
  | .pair b c => [b, c]

/-- A band has data: its row was given. -/
def Measured (s : Cmd) (b : String) : Prop := (dataRow s b).isSome

/-! ## Lemmas -/

theorem lmin_mem : ∀ l : List ℝ, l ≠ [] → lmin l ∈ l
  | [], h => absurd rfl h
  | [a], _ => List.mem_singleton.mpr rfl
  | a :: b :: l, _ => by
    show min a (lmin (b :: l)) ∈ _
    rcases min_choice a (lmin (b :: l)) with h | h
    · rw [h]; exact List.mem_cons_self
    · rw [h]; exact List.mem_cons_of_mem _ (lmin_mem (b :: l) (by simp))

theorem lmin_le : ∀ (l : List ℝ) (x : ℝ), x ∈ l → lmin l ≤ x
  | [], _, h => by cases h
  | [a], x, h => by rw [List.mem_singleton.1 h]; exact le_refl _
  | a :: b :: l, x, h => by
    rcases List.mem_cons.1 h with h | h
    · rw [h]; exact min_le_left _ _
    · exact le_trans (min_le_right _ _) (lmin_le (b :: l) x h)

theorem lmax_mem : ∀ l : List ℝ, l ≠ [] → lmax l ∈ l
  | [], h => absurd rfl h
  | [a], _ => List.mem_singleton.mpr rfl
  | a :: b :: l, _ => by
    show max a (lmax (b :: l)) ∈ _
    rcases max_choice a (lmax (b :: l)) with h | h
    · rw [h]; exact List.mem_cons_self
    · rw [h]; exact List.mem_cons_of_mem _ (lmax_mem (b :: l) (by simp))

theorem le_lmax : ∀ (l : List ℝ) (x : ℝ), x ∈ l → x ≤ lmax l
  | [], _, h => by cases h
  | [a], x, h => by rw [List.mem_singleton.1 h]; exact le_refl _
  | a :: b :: l, x, h => by
    rcases List.mem_cons.1 h with h | h
    · rw [h]; exact le_max_left _ _
    · exact le_trans (le_lmax (b :: l) x h) (le_max_right _ _)

/-- The invariant of reachable states. -/
structure Wf (s : Cmd) : Prop where
  cenLen : s.cen.length = 3
  locLen : ∀ l, s.locs = some l → l.length ≤ 3
  names : ∀ b ∈ s.names, (look s.fid b).isSome
  fidLen : ∀ b e, look s.fid b = some e → e.data.length = s.nfid
  dataLen : ∀ d, s.data = some d → d.length = s.names.length ∧ s.datamask = d.map Option.isSome ∧
    ∀ r, some r ∈ d → r.length = s.nd
  noData : s.data = none → s.nd = 0
  sel : ∀ l, s.offbands = some l → ∀ x ∈ l, ∀ b ∈ bandsOf x, b ∈ s.names
  ws : ∀ w, s.offws = some w → ∃ l, s.offbands = some l ∧ w.length = l.length

theorem wf_create (known : String → Bool) (order : Table ℝ → List String) (specs : List Spec) (rows : List (List ℝ))
    (n : Nat) (fidname : String ⊕ List (String × List Nat)) (horder : ∀ t b, b ∈ order t ↔ (look t b).isSome)
    (hrows : ∀ r ∈ rows, r.length = n) (s : Cmd) (h : create known order specs rows n fidname = .ok s) : Wf s := by
  unfold create at h
  cases ht : toDicts known specs rows with
  | error e => rw [ht] at h; cases h
  | ok p =>
    obtain ⟨t, w⟩ := p
    rw [ht] at h
    simp only at h
    cases hf : fidNames n fidname with
    | error e => rw [hf] at h; cases h
    | ok d =>
      rw [hf] at h
      cases h
      exact ⟨rfl, fun l hl => (by cases hl), fun b hb => (horder t b).1 hb, CmdTables.toDicts_width known specs rows n hrows t w ht,
        fun d hd => (by cases hd), fun _ => rfl, fun l hl => (by cases hl), fun w hw => (by cases hw)⟩

theorem wf_afterData (s : Cmd) (h : Wf s) : Wf (afterData s) :=
  ⟨h.cenLen, fun l hl => (by cases hl), h.names, h.fidLen, h.dataLen, h.noData, h.sel, fun w hw => by cases hw⟩

theorem argSel_names (s : Cmd) (a : Arg) (l : List Sel) (h : argSel s a = .ok l) :
    ∀ x ∈ l, ∀ b ∈ bandsOf x, b ∈ s.names := by
  intro x hx b hb
  cases a with
  | name c =>
    simp only [argSel] at h
    split at h
    · next hc =>
      cases h
      simp at hx; subst hx
      simp [bandsOf] at hb; subst hb
      simpa using hc
    · cases h
  | color c d =>
    simp only [argSel] at h
    split at h
    · next hc =>
      cases h
      simp at hx; subst hx
      simp at hc
      simp [bandsOf] at hb
      rcases hb with rfl | rfl
      · exact hc.1
      · exact hc.2
    · cases h
  | dashes => cases h
  | int i =>
    simp only [argSel] at h
    cases hn : nameAt s i with
    | error e => rw [hn] at h; cases h
    | ok c =>
      rw [hn] at h
      cases h
      simp at hx; subst hx
      simp [bandsOf] at hb; subst hb
      unfold nameAt at hn
      simp only at hn
      generalize (if i < 0 then i + (s.names.length : Int) else i) = j at hn
      split at hn
      · cases hn
      · split at hn
        · next hg => cases hn; exact List.mem_of_getElem? hg
        · cases hn
  | tuple c d =>
    simp only [argSel] at h
    split at h
    · next hc =>
      cases h
      simp at hc
      simp at hx
      rcases hx with rfl | rfl
      · simp [bandsOf] at hb; subst hb; exact hc.1
      · simp [bandsOf] at hb; subst hb; exact hc.2
    · cases h
  | other => cases h

theorem argSels_names (s : Cmd) : ∀ (l : List Arg) (x : List Sel), argSels s l = .ok x →
    ∀ y ∈ x, ∀ b ∈ bandsOf y, b ∈ s.names
  | [], x, h, y, hy => by cases h; cases hy
  | a :: r, x, h, y, hy => by
    unfold argSels at h
    cases ha : argSel s a with
    | error e => rw [ha] at h; cases h
    | ok u =>
      rw [ha] at h
      simp only at h
      cases hr : argSels s r with
      | error e => rw [hr] at h; cases h
      | ok v =>
        rw [hr] at h
        cases h
        rcases List.mem_append.1 hy with hy | hy
        · exact argSel_names s a u ha y hy
        · exact argSels_names s r v hr y hy

theorem wf_orElse (s : Cmd) (x : Except Err Cmd) (h : Wf s) (hx : ∀ t, x = .ok t → Wf t) : Wf (orElse s x) := by
  cases x with
  | error e => exact h
  | ok t => exact hx t rfl

theorem wf_step (s : Cmd) (op : Op) (hop : OpOk op) (h : Wf s) : Wf (step s op) := by
  cases op with
  | dataMap known specs rows n =>
    refine wf_orElse s _ h (fun t ht => ?_)
    unfold setDataMap at ht
    cases hd : toDicts known specs rows with
    | error e => rw [hd] at ht; cases ht
    | ok p =>
      obtain ⟨u, w⟩ := p
      rw [hd] at ht
      simp only at ht
      split at ht
      · cases ht
      · cases ht
        refine wf_afterData _ ⟨h.cenLen, h.locLen, h.names, h.fidLen, ?_, fun hn => (by cases hn), h.sel, h.ws⟩
        intro d hd'
        cases hd'
        refine ⟨by simp [mapData], rfl, ?_⟩
        intro r hr
        obtain ⟨b, -, hb⟩ := List.mem_map.1 hr
        have hw := CmdTables.toDicts_width known specs rows n hop u w hd
        cases hl : look u b with
        | none => rw [hl] at hb; cases hb
        | some e =>
          rw [hl] at hb
          simp only at hb
          split at hb
          · cases hb; exact hw b e hl
          · cases hb
  | dataSeq rows n =>
    refine wf_orElse s _ h (fun t ht => ?_)
    unfold setDataSeq at ht
    split at ht
    · cases ht
    · next hl =>
      cases ht
      refine wf_afterData _ ⟨h.cenLen, h.locLen, h.names, h.fidLen, ?_, fun hn => (by cases hn), h.sel, h.ws⟩
      intro d hd'
      cases hd'
      refine ⟨by simpa using hl, by rw [List.map_map]; rfl, ?_⟩
      intro r hr
      obtain ⟨b, hb, hbr⟩ := List.mem_map.1 hr
      cases hbr
      exact hop _ hb
  | locs v n =>
    refine wf_orElse s _ h (fun t ht => ?_)
    unfold setLocs at ht
    cases v with
    | none => cases ht; exact ⟨h.cenLen, fun l hl => (by cases hl), h.names, h.fidLen, h.dataLen, h.noData, h.sel, h.ws⟩
    | some arr =>
      simp only at ht
      split at ht
      · cases ht
      · next hlen =>
        split at ht
        · cases ht
        · cases ht; exact ⟨h.cenLen, fun l hl => (by cases hl; omega), h.names, h.fidLen, h.dataLen, h.noData, h.sel, h.ws⟩
  | names v =>
    refine wf_orElse s _ h (fun t ht => ?_)
    unfold setNames at ht
    split at ht
    · cases ht
    · cases ht; exact ⟨h.cenLen, h.locLen, h.names, h.fidLen, h.dataLen, h.noData, h.sel, h.ws⟩
  | groups v =>
    refine wf_orElse s _ h (fun t ht => ?_)
    unfold setGroups at ht
    cases v with
    | none => cases ht; exact ⟨h.cenLen, h.locLen, h.names, h.fidLen, h.dataLen, h.noData, h.sel, h.ws⟩
    | some g =>
      simp only at ht
      split at ht
      · cases ht
      · cases ht; exact ⟨h.cenLen, h.locLen, h.names, h.fidLen, h.dataLen, h.noData, h.sel, h.ws⟩
  | center v =>
    refine wf_orElse s _ h (fun t ht => ?_)
    unfold setCen at ht
    split at ht
    · cases ht; exact ⟨rfl, h.locLen, h.names, h.fidLen, h.dataLen, h.noData, h.sel, h.ws⟩
    · cases ht; exact ⟨rfl, h.locLen, h.names, h.fidLen, h.dataLen, h.noData, h.sel, h.ws⟩
    · cases ht; exact ⟨rfl, h.locLen, h.names, h.fidLen, h.dataLen, h.noData, h.sel, h.ws⟩
    · cases ht
  | offsetbands v =>
    refine wf_orElse s _ h (fun t ht => ?_)
    unfold setOffBands at ht
    cases v with
    | none => cases ht; exact ⟨h.cenLen, h.locLen, h.names, h.fidLen, h.dataLen, h.noData, fun l hl => (by cases hl), fun w hw => (by cases hw)⟩
    | some l =>
      simp only at ht
      cases ha : argSels s l with
      | error e => rw [ha] at ht; cases ht
      | ok x =>
        rw [ha] at ht
        cases ht
        refine ⟨h.cenLen, h.locLen, h.names, h.fidLen, h.dataLen, h.noData, ?_, fun w hw => (by cases hw)⟩
        intro l' hl'
        cases hl'
        exact argSels_names s l x ha
  | distmod v => exact ⟨h.cenLen, h.locLen, h.names, h.fidLen, h.dataLen, h.noData, h.sel, h.ws⟩
  | offsetweights v =>
    refine wf_orElse s _ h (fun t ht => ?_)
    unfold setWs at ht
    cases v with
    | none => cases ht; exact ⟨h.cenLen, h.locLen, h.names, h.fidLen, h.dataLen, h.noData, h.sel, fun w hw => (by cases hw)⟩
    | some w =>
      simp only at ht
      cases hb : s.offbands with
      | none =>
        rw [hb] at ht
        simp only at ht
        split at ht <;> cases ht
      | some l =>
        rw [hb] at ht
        simp only at ht
        split at ht
        · cases ht
        · next hl =>
          cases ht
          exact ⟨h.cenLen, h.locLen, h.names, h.fidLen, h.dataLen, h.noData, fun l' hl' => h.sel l' (hb.trans hl'),
            fun w' hw => by cases hw; exact ⟨l, rfl, not_not.1 hl⟩⟩
  | locweight v => exact ⟨h.cenLen, h.locLen, h.names, h.fidLen, h.dataLen, h.noData, h.sel, h.ws⟩
  | clearOffsets => exact ⟨h.cenLen, h.locLen, h.names, h.fidLen, h.dataLen, h.noData, h.sel, h.ws⟩
  | getOffsets =>
    show Wf (getOffsets s).2
    unfold getOffsets
    split
    · exact h
    · split
      · exact h
      · split
        · exact ⟨h.cenLen, h.locLen, h.names, h.fidLen, h.dataLen, h.noData, h.sel, h.ws⟩
        · exact h

theorem wf_reachable (s : Cmd) (h : Reachable s) : Wf s := by
  induction h with
  | new known order specs rows n fidname horder hrows s h => exact wf_create known order specs rows n fidname horder hrows s h
  | step s op hop _ ih => exact wf_step s op hop ih

/-! ## The documented offset -/

/-- The bands and colours that the offset is made of: those asked for, or all bands with fiducial and data. -/
def selection (s : Cmd) : List Sel :=
  match s.offbands with
  | some l => l
  | none => (s.names.filter (fun b => fidMask s b && dataMask s b)).map .one

/-- All values of the distance in one band or colour. -/
def values (s : Cmd) (x : Sel) : Set ℝ := {d | ∃ j k, j < s.nfid ∧ k < s.nd ∧ d = away s j k x}

/-- The factor that the documentation of `offsetweights` gives for the weight `w`: a positive one is used as it is, a negative one is
divided by the total range. -/
def Factor (s : Cmd) (x : Sel) (w v : ℝ) : Prop :=
  (0 ≤ w ∧ v = w) ∨ (w < 0 ∧ ∃ hi lo, IsGreatest (values s x) hi ∧ IsLeast (values s x) lo ∧ lo < hi ∧ v = -w / (hi - lo))

/-- The squared distance of the object `k` from the centre, times its weight; nothing without locations or without a weight. -/
noncomputable def location (s : Cmd) (k : Nat) : ℝ :=
  match s.locw, s.locs with
  | some w, some l => w * ((List.range l.length).map (fun i => ((l.getD i []).getD k 0 - s.cen.getD i 0) ^ 2)).sum
  | _, _ => 0

/-- The squared distance in all bands and colours `l` with the factors `vs`. -/
noncomputable def total (s : Cmd) (l : List Sel) (vs : List ℝ) (j k : Nat) : ℝ :=
  (List.zipWith (fun x v => (v * away s j k x) ^ 2) l vs).sum

theorem used_selection (s : Cmd) (l : List Sel) (h : used s = .ok l) : l = selection s := by
  unfold used at h
  unfold selection
  cases hb : s.offbands with
  | none => rw [hb] at h; cases h; rfl
  | some l' =>
    rw [hb] at h
    simp only at h
    split at h
    · cases h; rfl
    · cases h

theorem complete_all (s : Cmd) : ∀ l : List Sel, (∀ x ∈ l, (column s x).2.isSome) →
    complete (l.map (column s)) = some (l.map (fun x => ((column s x).1, (column s x).2.getD [])))
  | [], _ => rfl
  | x :: l, h => by
    have hx := h x List.mem_cons_self
    have ih := complete_all s l (fun y hy => h y (List.mem_cons_of_mem _ hy))
    cases hc : column s x with
    | mk f d =>
      rw [hc] at hx
      cases d with
      | none => cases hx
      | some d =>
        rw [List.map_cons, hc]
        show (complete (l.map (column s))).map ((f, d) :: ·) = _
        rw [ih, List.map_cons, hc]
        rfl

theorem column_some (s : Cmd) (x : Sel) (h : ∀ b ∈ bandsOf x, Measured s b) : (column s x).2.isSome := by
  cases x with
  | one b => exact h b (List.mem_singleton.mpr rfl)
  | pair b c =>
    have hb : (dataRow s b).isSome := h b (by simp [bandsOf])
    have hc : (dataRow s c).isSome := h c (by simp [bandsOf])
    show (optSub _ _).isSome
    cases h1 : dataRow s b with
    | none => rw [h1] at hb; cases hb
    | some u =>
      cases h2 : dataRow s c with
      | none => rw [h2] at hc; cases hc
      | some v => rfl

theorem getD_zipWith (f : ℝ → ℝ → ℝ) : ∀ (a b : List ℝ) (j : Nat), j < a.length → j < b.length →
    (List.zipWith f a b).getD j 0 = f (a.getD j 0) (b.getD j 0)
  | [], _, _, h, _ => by cases h
  | _ :: _, [], _, _, h => by cases h
  | x :: a, y :: b, 0, _, _ => rfl
  | x :: a, y :: b, j + 1, h1, h2 => by
    simpa using getD_zipWith f a b j (by simpa using h1) (by simpa using h2)

theorem getD_map' (f : ℝ → ℝ) : ∀ (a : List ℝ) (j : Nat), j < a.length → (a.map f).getD j 0 = f (a.getD j 0)
  | [], _, h => by cases h
  | x :: a, 0, _ => rfl
  | x :: a, j + 1, h => by simpa using getD_map' f a j (by simpa using h)

theorem fidRow_len (s : Cmd) (h : Wf s) (b : String) (hb : b ∈ s.names) : (fidRow s b).length = s.nfid := by
  have := h.names b hb
  unfold fidRow
  cases hl : look s.fid b with
  | none => rw [hl] at this; cases this
  | some e => exact h.fidLen b e hl

theorem dataRow_len (s : Cmd) (h : Wf s) (b : String) (hm : Measured s b) :
    ((dataRow s b).getD []).length = s.nd := by
  unfold Measured at hm
  cases hr : dataRow s b with
  | none => rw [hr] at hm; cases hm
  | some r =>
    unfold dataRow at hr
    cases hd : s.data with
    | none => rw [hd] at hr; cases hr
    | some d =>
      rw [hd] at hr
      refine (h.dataLen d hd).2.2 r ?_
      have hr' : d.getD (s.names.idxOf b) none = some r := hr
      rw [List.getD_eq_getElem?_getD] at hr'
      cases hg : d[s.names.idxOf b]? with
      | none => rw [hg] at hr'; cases hr'
      | some y =>
        rw [hg] at hr'
        have : y = some r := hr'
        subst this
        exact List.mem_of_getElem? hg

theorem selection_names (s : Cmd) (h : Wf s) (x : Sel) (hx : x ∈ selection s) : ∀ b ∈ bandsOf x, b ∈ s.names := by
  unfold selection at hx
  cases hb : s.offbands with
  | none =>
    rw [hb] at hx
    obtain ⟨c, hc, rfl⟩ := List.mem_map.1 hx
    intro b hb'
    rw [List.mem_singleton.1 hb']
    exact (List.mem_filter.1 hc).1
  | some l =>
    rw [hb] at hx
    exact h.sel l hb x hx

theorem column_len (s : Cmd) (h : Wf s) (x : Sel) (hn : ∀ b ∈ bandsOf x, b ∈ s.names)
    (hm : ∀ b ∈ bandsOf x, Measured s b) :
    (column s x).1.length = s.nfid ∧ ((column s x).2.getD []).length = s.nd := by
  cases x with
  | one b =>
    have hb : b ∈ bandsOf (.one b) := List.mem_singleton.mpr rfl
    exact ⟨(List.length_map _).trans (fidRow_len s h b (hn b hb)), dataRow_len s h b (hm b hb)⟩
  | pair b c =>
    have hb : b ∈ bandsOf (.pair b c) := by simp [bandsOf]
    have hc : c ∈ bandsOf (.pair b c) := by simp [bandsOf]
    refine ⟨?_, ?_⟩
    · show (List.zipWith _ _ _).length = _
      rw [List.length_zipWith, fidRow_len s h b (hn b hb), fidRow_len s h c (hn c hc), min_self]
    · have h1 := dataRow_len s h b (hm b hb)
      have h2 := dataRow_len s h c (hm c hc)
      have m1 : (dataRow s b).isSome := hm b hb
      have m2 : (dataRow s c).isSome := hm c hc
      show ((optSub (dataRow s b) (dataRow s c)).getD []).length = _
      cases e1 : dataRow s b with
      | none => rw [e1] at m1; cases m1
      | some u =>
        cases e2 : dataRow s c with
        | none => rw [e2] at m2; cases m2
        | some v =>
          rw [e1] at h1
          rw [e2] at h2
          show (List.zipWith _ u v).length = _
          have h1' : u.length = s.nd := h1
          have h2' : v.length = s.nd := h2
          rw [List.length_zipWith, h1', h2', min_self]

theorem column_away (s : Cmd) (h : Wf s) (x : Sel) (hn : ∀ b ∈ bandsOf x, b ∈ s.names)
    (hm : ∀ b ∈ bandsOf x, Measured s b) (j k : Nat) (hj : j < s.nfid) (hk : k < s.nd) :
    (column s x).1.getD j 0 - ((column s x).2.getD []).getD k 0 = away s j k x := by
  cases x with
  | one b =>
    have hb : b ∈ bandsOf (.one b) := List.mem_singleton.mpr rfl
    show ((fidRow s b).map (· + s.dmod)).getD j 0 - _ = _
    rw [getD_map' _ _ _ (by rw [fidRow_len s h b (hn b hb)]; exact hj)]
    rfl
  | pair b c =>
    have hb : b ∈ bandsOf (.pair b c) := by simp [bandsOf]
    have hc : c ∈ bandsOf (.pair b c) := by simp [bandsOf]
    have h1 := dataRow_len s h b (hm b hb)
    have h2 := dataRow_len s h c (hm c hc)
    have m1 : (dataRow s b).isSome := hm b hb
    have m2 : (dataRow s c).isSome := hm c hc
    show (List.zipWith (· - ·) (fidRow s b) (fidRow s c)).getD j 0 - ((optSub (dataRow s b) (dataRow s c)).getD []).getD k 0 = _
    rw [getD_zipWith _ _ _ _ (by rw [fidRow_len s h b (hn b hb)]; exact hj) (by rw [fidRow_len s h c (hn c hc)]; exact hj)]
    unfold away objMag fidMag
    cases e1 : dataRow s b with
    | none => rw [e1] at m1; cases m1
    | some u =>
      cases e2 : dataRow s c with
      | none => rw [e2] at m2; cases m2
      | some v =>
        rw [e1] at h1
        rw [e2] at h2
        have h1' : u.length = s.nd := h1
        have h2' : v.length = s.nd := h2
        show _ - (List.zipWith (· - ·) u v).getD k 0 = _
        rw [getD_zipWith _ u v k (lt_of_lt_of_eq hk h1'.symm) (lt_of_lt_of_eq hk h2'.symm)]
        simp only [e1, e2, Option.getD_some]
        ring

theorem mem_diffs (f d : List ℝ) (x : ℝ) :
    x ∈ diffs f d ↔ ∃ j k, j < f.length ∧ k < d.length ∧ x = f.getD j 0 - d.getD k 0 := by
  unfold diffs
  simp only [List.mem_flatMap, List.mem_map]
  constructor
  · rintro ⟨y, hy, z, hz, rfl⟩
    obtain ⟨k, hk, rfl⟩ := List.getElem_of_mem hy
    obtain ⟨j, hj, rfl⟩ := List.getElem_of_mem hz
    exact ⟨j, k, hj, hk, by simp [hj, hk]⟩
  · rintro ⟨j, k, hj, hk, rfl⟩
    exact ⟨d[k], List.getElem_mem hk, f[j], List.getElem_mem hj, by simp [hj, hk]⟩

/-- The columns of the model, for a selection. -/
noncomputable def fullCol (s : Cmd) (x : Sel) : List ℝ × List ℝ := ((column s x).1, (column s x).2.getD [])

theorem diffs_values (s : Cmd) (h : Wf s) (x : Sel) (hn : ∀ b ∈ bandsOf x, b ∈ s.names)
    (hm : ∀ b ∈ bandsOf x, Measured s b) (d : ℝ) :
    d ∈ diffs (fullCol s x).1 (fullCol s x).2 ↔ d ∈ values s x := by
  obtain ⟨h1, h2⟩ := column_len s h x hn hm
  rw [mem_diffs]
  constructor
  · rintro ⟨j, k, hj, hk, rfl⟩
    have hj' : j < s.nfid := lt_of_lt_of_eq hj h1
    have hk' : k < s.nd := lt_of_lt_of_eq hk h2
    exact ⟨j, k, hj', hk', column_away s h x hn hm j k hj' hk'⟩
  · rintro ⟨j, k, hj, hk, rfl⟩
    exact ⟨j, k, lt_of_lt_of_eq hj h1.symm, lt_of_lt_of_eq hk h2.symm, (column_away s h x hn hm j k hj hk).symm⟩

theorem weight_factor (s : Cmd) (h : Wf s) (x : Sel) (hn : ∀ b ∈ bandsOf x, b ∈ s.names)
    (hm : ∀ b ∈ bandsOf x, Measured s b) (w : ℝ) (hne : (values s x).Nonempty)
    (hbad : ¬ badWeight (fullCol s x).1 (fullCol s x).2 w) :
    Factor s x w (weight (fullCol s x).1 (fullCol s x).2 w) := by
  by_cases hw : w < 0
  · right
    refine ⟨hw, lmax (diffs (fullCol s x).1 (fullCol s x).2), lmin (diffs (fullCol s x).1 (fullCol s x).2), ?_, ?_, ?_, ?_⟩
    · have hne' : diffs (fullCol s x).1 (fullCol s x).2 ≠ [] := by
        obtain ⟨d, hd⟩ := hne
        exact List.ne_nil_of_mem ((diffs_values s h x hn hm d).2 hd)
      exact ⟨(diffs_values s h x hn hm _).1 (lmax_mem _ hne'),
        fun d hd => le_lmax _ d ((diffs_values s h x hn hm d).2 hd)⟩
    · have hne' : diffs (fullCol s x).1 (fullCol s x).2 ≠ [] := by
        obtain ⟨d, hd⟩ := hne
        exact List.ne_nil_of_mem ((diffs_values s h x hn hm d).2 hd)
      exact ⟨(diffs_values s h x hn hm _).1 (lmin_mem _ hne'),
        fun d hd => lmin_le _ d ((diffs_values s h x hn hm d).2 hd)⟩
    · have hne' : diffs (fullCol s x).1 (fullCol s x).2 ≠ [] := by
        obtain ⟨d, hd⟩ := hne
        exact List.ne_nil_of_mem ((diffs_values s h x hn hm d).2 hd)
      refine lt_of_le_of_ne (lmin_le _ _ (lmax_mem _ hne')) (fun hc => hbad ⟨hw, hc.symm⟩)
    · unfold weight; rw [if_pos hw]
  · left
    exact ⟨not_lt.1 hw, by unfold weight; rw [if_neg hw]⟩

theorem sumSq_total (s : Cmd) (h : Wf s) (j k : Nat) (hj : j < s.nfid) (hk : k < s.nd) :
    ∀ (l : List Sel) (ws : List ℝ), (∀ x ∈ l, ∀ b ∈ bandsOf x, b ∈ s.names) → (∀ x ∈ l, ∀ b ∈ bandsOf x, Measured s b) →
      sumSq (weighted (l.map (fullCol s)) ws) j k =
        total s l (List.zipWith (fun x w => weight (fullCol s x).1 (fullCol s x).2 w) l ws) j k
  | [], _, _, _ => rfl
  | x :: l, [], _, _ => rfl
  | x :: l, w :: ws, hn, hm => by
    have ih := sumSq_total s h j k hj hk l ws (fun y hy => hn y (List.mem_cons_of_mem _ hy))
      (fun y hy => hm y (List.mem_cons_of_mem _ hy))
    have hx := column_away s h x (hn x List.mem_cons_self) (hm x List.mem_cons_self) j k hj hk
    unfold sumSq total weighted at ih ⊢
    simp only [List.map_cons, List.zipWith_cons_cons, List.sum_cons]
    rw [ih]
    congr 1
    unfold sqTerm
    show (((column s x).1.getD j 0 - ((column s x).2.getD []).getD k 0) * _) ^ 2 = _
    rw [hx]
    ring

theorem locSq_spec (l : List (List ℝ)) (cen : List ℝ) (k : Nat) (h : l.length ≤ cen.length) :
    locSq l cen k = ((List.range l.length).map (fun i => ((l.getD i []).getD k 0 - cen.getD i 0) ^ 2)).sum := by
  unfold locSq
  congr 1
  refine List.ext_getElem ?_ ?_
  · simp [h]
  · intro i h1 h2
    have hi : i < l.length := by simpa using h2
    have hi' : i < cen.length := lt_of_lt_of_le hi h
    simp [hi, hi']

theorem locTerm_spec (s : Cmd) (h : Wf s) (k : Nat) : locTerm s k = location s k := by
  unfold locTerm location
  cases hw : s.locw with
  | none => rfl
  | some w =>
    cases hl : s.locs with
    | none => rfl
    | some l =>
      simp only
      have := locSq_spec l s.cen k (by rw [h.cenLen]; exact h.locLen l hl)
      split
      · next h0 => rw [h0, zero_mul]
      · rw [this]

theorem total_nonneg (s : Cmd) (j k : Nat) : ∀ (l : List Sel) (vs : List ℝ), 0 ≤ total s l vs j k
  | [], _ => by simp [total]
  | x :: l, [] => by simp [total]
  | x :: l, v :: vs => by
    have := total_nonneg s j k l vs
    unfold total at this ⊢
    simp only [List.zipWith_cons_cons, List.sum_cons]
    positivity

theorem location_nonneg (s : Cmd) (k : Nat) (hw : ∀ w, s.locw = some w → 0 ≤ w) : 0 ≤ location s k := by
  unfold location
  cases h1 : s.locw with
  | none => simp
  | some w =>
    cases h2 : s.locs with
    | none => simp
    | some l =>
      simp only
      refine mul_nonneg (hw w h1) (List.sum_nonneg ?_)
      intro x hx
      obtain ⟨i, -, rfl⟩ := List.mem_map.1 hx
      positivity

theorem weights_len (s : Cmd) (h : Wf s) : (weightsOf s (selection s).length).length = (selection s).length := by
  unfold weightsOf
  cases hw : s.offws with
  | none => simp
  | some w =>
    obtain ⟨l, hl, hlen⟩ := h.ws w hw
    simp only [Option.getD_some, selection, hl, hlen]

/-- **C118.** `getOffsets` gives the documented offset, in every state a user can reach.  Take the bands and colours selected, all
measured, with weights whose range (for negative ones) is not zero, and a location weight that is not negative.  Then every object `k` has
a finite offset `r`, and `r` squared is the smallest, over the fiducial points moved to the distance modulus, of the weighted sum of
squared distances, plus the weighted squared distance from the centre. -/
theorem offsets_documented (s : Cmd) (hs : Reachable s) (hcache : s.offsets = none) (o : List (Option ℝ))
    (hget : (getOffsets s).1 = .ok o) (hm : ∀ x ∈ selection s, ∀ b ∈ bandsOf x, Measured s b)
    (hr : ∀ p ∈ (selection s).zip (weightsOf s (selection s).length), p.2 < 0 → ∃ d ∈ values s p.1, ∃ e ∈ values s p.1, d ≠ e)
    (hw : ∀ w, s.locw = some w → 0 ≤ w) :
    o.length = s.nd ∧ ∀ k < s.nd, ∃ (vs : List ℝ) (r : ℝ),
      List.Forall₂ (fun p v => Factor s p.1 p.2 v) ((selection s).zip (weightsOf s (selection s).length)) vs ∧
      0 ≤ r ∧ o[k]? = some (some r) ∧
      (∃ j < s.nfid, r ^ 2 = total s (selection s) vs j k + location s k) ∧
      ∀ j < s.nfid, r ^ 2 ≤ total s (selection s) vs j k + location s k := by
  have hwf := wf_reachable s hs
  unfold getOffsets at hget
  cases hd : s.data with
  | none => rw [hd] at hget; cases hget
  | some d =>
  rw [hd, hcache] at hget
  simp only at hget
  cases hc : calcOff s with
  | error e => rw [hc] at hget; cases hget
  | ok o' =>
  rw [hc] at hget
  cases hget
  unfold calcOff at hc
  cases hu : used s with
  | error e => rw [hu] at hc; cases hc
  | ok l =>
  have hl := used_selection s l hu
  rw [hu, hl] at hc
  simp only at hc
  have hn : ∀ x ∈ selection s, ∀ b ∈ bandsOf x, b ∈ s.names := fun x hx => selection_names s hwf x hx
  split at hc
  · cases hc
  · next hne =>
  split at hc
  · cases hc
  · next hz =>
    rw [complete_all s _ (fun x hx => column_some s x (hm x hx))] at hc
    simp only at hc
    have hnf : 0 < s.nfid := Nat.pos_of_ne_zero (fun h0 => hne (Or.inr h0))
    have hnobad : ¬ ∃ p ∈ ((selection s).map (fullCol s)).zip (weightsOf s (selection s).length), badWeight p.1.1 p.1.2 p.2 := by
      rintro ⟨p, hp, hb⟩
      rw [List.zip_map_left] at hp
      obtain ⟨q, hq, rfl⟩ := List.mem_map.1 hp
      obtain ⟨x, hx, y, hy, hxy⟩ := hr q hq hb.1
      have hq1 := (List.of_mem_zip hq).1
      have hx' := (diffs_values s hwf q.1 (hn _ hq1) (hm _ hq1) x).2 hx
      have hy' := (diffs_values s hwf q.1 (hn _ hq1) (hm _ hq1) y).2 hy
      have e : lmax (diffs (fullCol s q.1).1 (fullCol s q.1).2) = lmin (diffs (fullCol s q.1).1 (fullCol s q.1).2) := hb.2
      have h1 := le_lmax _ _ hx'
      have h2 := lmin_le _ _ hx'
      have h3 := le_lmax _ _ hy'
      have h4 := lmin_le _ _ hy'
      exact hxy (by linarith)
    have hnb : ¬ ∃ p ∈ ((selection s).map (fun x => ((column s x).1, (column s x).2.getD []))).zip (weightsOf s (selection s).length),
        badWeight p.1.1 p.1.2 p.2 := hnobad
    rw [if_neg hnb] at hc
    cases hc
    refine ⟨by simp, ?_⟩
    intro k hk
    set ws := weightsOf s (selection s).length with hws
    set vs := List.zipWith (fun x w => weight (fullCol s x).1 (fullCol s x).2 w) (selection s) ws with hvs
    have hmin : cmdSq (weighted ((selection s).map (fullCol s)) ws) s.nfid k = lmin ((List.range s.nfid).map (fun j => total s (selection s) vs j k)) := by
      unfold cmdSq
      congr 1
      refine List.map_congr_left ?_
      intro j hj
      exact sumSq_total s hwf j k (List.mem_range.1 hj) hk _ _ hn hm
    have hne' : (List.range s.nfid).map (fun j => total s (selection s) vs j k) ≠ [] := by
      simp; omega
    have hmem := lmin_mem _ hne'
    obtain ⟨j0, hj0, hj0'⟩ := List.mem_map.1 hmem
    have hpos : 0 ≤ lmin ((List.range s.nfid).map (fun j => total s (selection s) vs j k)) + location s k :=
      add_nonneg (by rw [← hj0']; exact total_nonneg s j0 k _ _) (location_nonneg s k hw)
    refine ⟨vs, Real.sqrt (lmin ((List.range s.nfid).map (fun j => total s (selection s) vs j k)) + location s k), ?_, Real.sqrt_nonneg _, ?_, ?_, ?_⟩
    · have hlen := weights_len s hwf
      rw [← hws] at hlen
      clear_value ws
      have hval : ∀ x, (values s x).Nonempty := fun x => ⟨_, 0, k, hnf, hk, rfl⟩
      have hnb' : ∀ p ∈ (selection s).zip ws, ¬ badWeight (fullCol s p.1).1 (fullCol s p.1).2 p.2 := by
        intro p hp hb
        refine hnobad ⟨(fullCol s p.1, p.2), ?_, hb⟩
        rw [List.zip_map_left]
        exact List.mem_map.2 ⟨p, hp, rfl⟩
      rw [hvs]
      clear hvs hmin hne' hmem hj0' hpos hws hnb hnobad hr hne hz vs
      generalize selection s = l at hm hn hlen hnb'
      induction l generalizing ws with
      | nil => simp
      | cons x l ih =>
        cases ws with
        | nil => simp at hlen
        | cons w ws =>
          simp only [List.zip_cons_cons, List.zipWith_cons_cons]
          refine List.Forall₂.cons ?_ ?_
          · exact weight_factor s hwf x (hn x List.mem_cons_self) (hm x List.mem_cons_self) w (hval x)
              (hnb' (x, w) (by simp))
          · exact ih ws (fun y hy => hm y (List.mem_cons_of_mem _ hy)) (fun y hy => hn y (List.mem_cons_of_mem _ hy))
              (by simpa using hlen) (fun p hp => hnb' p (by simp [hp]))
    · rw [List.getElem?_map, List.getElem?_range hk]
      show some (root (cmdSq (weighted ((selection s).map (fullCol s)) ws) s.nfid k + locTerm s k)) = _
      rw [hmin, locTerm_spec s hwf]
      unfold root
      rw [if_neg (not_lt.2 hpos)]
    · refine ⟨j0, List.mem_range.1 hj0, ?_⟩
      rw [Real.sq_sqrt hpos, ← hj0']
    · intro j hj
      rw [Real.sq_sqrt hpos]
      have := lmin_le ((List.range s.nfid).map (fun j => total s (selection s) vs j k)) _ (List.mem_map.2 ⟨j, List.mem_range.2 hj, rfl⟩)
      linarith

end Verif.Cmd

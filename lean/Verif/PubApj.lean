import Verif.PubArxiv

/-!
# The files of a submission to ApJ (C166)
-/

namespace Verif.PubPrep

variable {C T : Type}

/-! ## Specification -/

/-- The name of file number `j` of the `k` files of figure number `i` (all from 0): `f3` if it is the only one, else `f3a`, `f3b`, ... -/
def newName (i k j : Nat) : Text := 'f' :: (TeXFile.str (i + 1) ++ if k = 1 then [] else [Char.ofNat (97 + j)])

/-- The new names of figure number `i`. -/
def figNames (i k : Nat) : List Text := (List.range k).map (newName i k)

/-- Old and new names, from figure number `i` on. -/
def pairs : Nat → List (List Text) → List (Text × Text)
  | _, [] => []
  | i, old :: l => old.zip (figNames i old.length) ++ pairs (i + 1) l

/-- How many names a command has. -/
def count (k : Kind) : Nat := if k = .plottwo then 2 else 1

/-! ## Names -/

theorem letters_spec (l : List Nat) : letters l = if ∀ j ∈ l, j < 159 then .ok (l.map (fun j => Char.ofNat (97 + j))) else .error .value := by
  induction l with
  | nil => simp [letters]
  | cons j l ih =>
    simp only [letters, ih]
    by_cases hj : j < 159
    · rw [if_pos (by omega)]
      by_cases hl : ∀ j ∈ l, j < 159
      · rw [if_pos hl, if_pos (by simpa [hj] using hl)]
        rfl
      · rw [if_neg hl, if_neg]
        intro h
        exact hl (fun x hx => h x (List.mem_cons_of_mem _ hx))
    · rw [if_neg (by omega), if_neg]
      intro h
      exact hj (h j List.mem_cons_self)

/-- The names as they are made; there are letters for 159 files. -/
theorem newNames_spec (i k : Nat) : newNames i k = if k ≤ 159 then .ok (figNames i k) else .error .value := by
  unfold newNames
  by_cases h1 : k = 1
  · subst h1
    rw [if_pos rfl, if_pos (by omega)]
    simp [figNames, newName, List.range_succ]
  · rw [if_neg h1, letters_spec]
    by_cases hk : k ≤ 159
    · rw [if_pos hk, if_pos (by intro j hj; rw [List.mem_range] at hj; omega)]
      simp only [figNames, List.map_map]
      congr 1
      apply List.map_congr_left
      intro j _
      simp [newName, h1]
    · rw [if_neg hk, if_neg]
      intro h
      have := h 159 (by rw [List.mem_range]; omega)
      omega

theorem letter_val {j : Nat} (hj : j < 159) : (Char.ofNat (97 + j)).toNat = 97 + j := by
  have hv : (97 + j).isValidChar := by left; omega
  unfold Char.ofNat
  rw [dif_pos hv]
  rfl

theorem letter_not_digit {j : Nat} (hj : j < 159) : (Char.ofNat (97 + j)).isDigit = false := by
  have h := letter_val hj
  by_contra hc
  simp only [Bool.not_eq_false, Char.isDigit, Bool.and_eq_true, decide_eq_true_eq] at hc
  have h2 := hc.2
  have : (Char.ofNat (97 + j)).toNat ≤ 57 := h2
  omega

theorem digits_of (i k j : Nat) (hj : k = 1 ∨ j < 159) : (newName i k j).tail.takeWhile Char.isDigit = TeXFile.str (i + 1) := by
  unfold newName
  simp only [List.tail_cons]
  rw [List.takeWhile_append_of_pos (TeXFile.str_digit _)]
  split_ifs with h
  · simp
  · rw [List.takeWhile_cons_of_neg (by rw [letter_not_digit (by omega)]; simp)]
    simp

/-- No two files get the same name. -/
theorem newName_inj {i i' k k' j j' : Nat} (hj : j < k) (hk : k ≤ 159) (hj' : j' < k') (hk' : k' ≤ 159) (hs : i = i' → k = k')
    (h : newName i k j = newName i' k' j') : i = i' ∧ j = j' := by
  have h1 := digits_of i k j (Or.inr (by omega))
  rw [h, digits_of i' k' j' (Or.inr (by omega))] at h1
  have h2 := congrArg TeXFile.readNat h1
  rw [TeXFile.readNat_str, TeXFile.readNat_str] at h2
  have hi : i = i' := by simpa using (Option.some.inj h2).symm
  refine ⟨hi, ?_⟩
  have hkk := hs hi
  subst hi; subst hkk
  by_cases hk1 : k = 1
  · omega
  · unfold newName at h
    rw [if_neg hk1, if_neg hk1] at h
    have h3 : Char.ofNat (97 + j) = Char.ofNat (97 + j') := by simpa using h
    have h4 := congrArg Char.toNat h3
    rw [letter_val (by omega), letter_val (by omega)] at h4
    omega

theorem newName_chars {i k j : Nat} (hj : j < k) (hk : k ≤ 159) : ∀ c ∈ newName i k j, c ≠ '/' ∧ c ≠ '.' := by
  intro c hc
  unfold newName at hc
  rcases List.mem_cons.1 hc with rfl | hc
  · decide
  · rcases List.mem_append.1 hc with hc | hc
    · have hd := TeXFile.str_digit _ c hc
      constructor <;> rintro rfl <;> revert hd <;> decide
    · split_ifs at hc
      · cases hc
      · rw [List.mem_singleton] at hc
        have hv : c.toNat = 97 + j := by rw [hc]; exact letter_val (by omega)
        constructor <;> rintro rfl
        · have : ('/' : Char).toNat = 47 := by decide
          omega
        · have : ('.' : Char).toNat = 46 := by decide
          omega

theorem figNames_length (i k : Nat) : (figNames i k).length = k := by simp [figNames]

theorem figNames_get (i k j : Nat) (hj : j < k) : (figNames i k)[j]? = some (newName i k j) := by
  unfold figNames
  rw [List.getElem?_map, List.getElem?_range hj]
  rfl

/-- What is in the list of old and new names. -/
theorem mem_pairs (l : List (List Text)) : ∀ i a b, (a, b) ∈ pairs i l ↔
    ∃ (n j : Nat) (old : List Text), l[n]? = some old ∧ old[j]? = some a ∧ b = newName (i + n) old.length j := by
  induction l with
  | nil => intro i a b; simp [pairs]
  | cons old l ih =>
    intro i a b
    simp only [pairs, List.mem_append]
    constructor
    · rintro (h | h)
      · obtain ⟨j, hj⟩ := List.mem_iff_getElem?.1 h
        rw [List.getElem?_zip_eq_some] at hj
        have hlt : j < old.length := (List.getElem?_eq_some_iff.1 hj.1).1
        rw [figNames_get _ _ _ hlt] at hj
        exact ⟨0, j, old, rfl, hj.1, (Option.some.inj hj.2).symm⟩
      · obtain ⟨n, j, o, h1, h2, h3⟩ := (ih _ _ _).1 h
        exact ⟨n + 1, j, o, by simpa using h1, h2, by rw [h3]; congr 1; omega⟩
    · rintro ⟨n, j, o, h1, h2, h3⟩
      cases n with
      | zero =>
        left
        simp only [List.getElem?_cons_zero, Option.some.injEq] at h1
        subst h1
        have hlt : j < old.length := (List.getElem?_eq_some_iff.1 h2).1
        apply List.mem_iff_getElem?.2
        exact ⟨j, by rw [List.getElem?_zip_eq_some]; exact ⟨h2, by rw [figNames_get _ _ _ hlt, h3]; rfl⟩⟩
      | succ n =>
        right
        rw [ih]
        exact ⟨n, j, o, by simpa using h1, h2, by rw [h3]; congr 1; omega⟩

/-! ## The dictionary -/

theorem update_mem (l : List (Text × Text)) : ∀ (m : List (Text × Text)) (k v : Text), (k, v) ∈ update m l ↔
    written l k = some v ∨ (written l k = none ∧ (k, v) ∈ m) := by
  induction l with
  | nil => intro m k v; simp [update, written]
  | cons e l ih =>
    obtain ⟨a, b⟩ := e
    intro m k v
    simp only [update, ih, written]
    cases hw : written l k with
    | some x => simp
    | none =>
      simp only [reduceCtorEq, false_or, true_and, List.mem_cons, Prod.mk.injEq, List.mem_filter, decide_eq_true_eq]
      by_cases h : a = k
      · subst h
        simp only [if_true, true_and, Option.some.injEq, ne_eq, not_true_eq_false, and_false, or_false, reduceCtorEq, false_and]
        exact eq_comm
      · rw [if_neg h]
        simp [Ne.symm h]

/-- The dictionary: the last new name of every old name. -/
theorem dict_mem (l : List (Text × Text)) (k v : Text) : (k, v) ∈ update [] l ↔ written l k = some v := by
  rw [update_mem]
  simp

/-! ## Renaming in the figures -/

theorem names_count (fig : List Cmd) : ∀ {l : List Text}, names fig = .ok l → l.length = (fig.map (fun c => count c.kind)).sum ∧
    ∀ c ∈ fig, count c.kind ≤ (reqs c.args).length := by
  induction fig with
  | nil => intro l h; cases h; simp
  | cons c fig ih =>
    intro l h
    unfold names at h ih
    simp only [collect] at h
    have hc : ∀ x, cmdNames c = .ok x → x.length = count c.kind ∧ count c.kind ≤ (reqs c.args).length := by
      intro x hx
      unfold cmdNames item at hx
      cases h0 : (reqs c.args)[0]? with
      | none => rw [h0] at hx; cases hx
      | some a =>
        rw [h0] at hx
        simp only at hx
        have hl : 0 < (reqs c.args).length := (List.getElem?_eq_some_iff.1 h0).1
        unfold count
        split_ifs at hx with hk
        · cases h1 : (reqs c.args)[1]? with
          | none => rw [h1] at hx; cases hx
          | some b =>
            rw [h1] at hx
            cases hx
            rw [if_pos hk]
            exact ⟨rfl, (List.getElem?_eq_some_iff.1 h1).1⟩
        · cases hx
          rw [if_neg hk]
          exact ⟨rfl, hl⟩
    cases hn : cmdNames c with
    | error e => rw [hn] at h; cases h
    | ok x =>
      rw [hn] at h
      simp only at h
      cases hr : collect cmdNames fig with
      | error e => rw [hr] at h; cases h
      | ok xs =>
        rw [hr] at h
        cases h
        obtain ⟨h1, h2⟩ := ih hr
        obtain ⟨h3, h4⟩ := hc x hn
        refine ⟨by simp [h1, h3], ?_⟩
        intro c' hc'
        rcases List.mem_cons.1 hc' with rfl | hc'
        · exact h4
        · exact h2 c' hc'

theorem assign_spec (args : List Arg) : ∀ ns : List Text,
    ((reqs args).length ≤ ns.length → ∃ args', assign args ns = .ok (args', ns.drop (reqs args).length) ∧ reqs args' = ns.take (reqs args).length) ∧
    (ns.length < (reqs args).length → assign args ns = .error .index) := by
  induction args with
  | nil => intro ns; simp [reqs, assign]
  | cons a args ih =>
    intro ns
    cases a with
    | opt o =>
      obtain ⟨h1, h2⟩ := ih ns
      simp only [reqs, assign]
      refine ⟨?_, ?_⟩
      · intro h
        obtain ⟨args', h3, h4⟩ := h1 h
        rw [h3]
        exact ⟨_, rfl, by simpa [reqs] using h4⟩
      · intro h
        rw [h2 h]
    | req t =>
      cases ns with
      | nil => simp [reqs, assign]
      | cons n ns =>
        obtain ⟨h1, h2⟩ := ih ns
        simp only [reqs, assign, List.length_cons]
        refine ⟨?_, ?_⟩
        · intro h
          obtain ⟨args', h3, h4⟩ := h1 (by omega)
          rw [h3]
          exact ⟨_, rfl, by simp [reqs, h4]⟩
        · intro h
          rw [h2 (by omega)]

theorem assignAll_spec (fig : List Cmd) : ∀ ns : List Text,
    ((fig.map (fun c => (reqs c.args).length)).sum ≤ ns.length → ∃ fig', assignAll fig ns = .ok fig' ∧ fig'.map (·.kind) = fig.map (·.kind) ∧
      fig'.map (fun c => (reqs c.args).length) = fig.map (fun c => (reqs c.args).length) ∧
      fig'.flatMap (fun c => reqs c.args) = ns.take (fig.map (fun c => (reqs c.args).length)).sum) ∧
    (ns.length < (fig.map (fun c => (reqs c.args).length)).sum → assignAll fig ns = .error .index) := by
  induction fig with
  | nil => intro ns; simp [assignAll]
  | cons c fig ih =>
    intro ns
    simp only [assignAll, List.map_cons, List.sum_cons]
    obtain ⟨h1, h2⟩ := assign_spec c.args ns
    refine ⟨?_, ?_⟩
    · intro h
      obtain ⟨args', h3, h4⟩ := h1 (by omega)
      obtain ⟨fig', h5, h6, h7, h8⟩ := (ih (ns.drop (reqs c.args).length)).1 (by rw [List.length_drop]; omega)
      rw [h3]
      simp only [h5]
      refine ⟨_, rfl, by simp [h6], ?_, ?_⟩
      · simp only [List.map_cons, h4, h7, List.length_take]
        congr 1
        omega
      · simp only [List.flatMap_cons, h4, h8]
        rw [List.take_add]
    · intro h
      by_cases hc : (reqs c.args).length ≤ ns.length
      · obtain ⟨args', h3, h4⟩ := h1 hc
        rw [h3]
        simp only
        rw [(ih _).2 (by rw [List.length_drop]; omega)]
      · rw [h2 (by omega)]

theorem names_plain (fig : List Cmd) (h : ∀ c ∈ fig, (reqs c.args).length = count c.kind) : names fig = .ok (fig.flatMap (fun c => reqs c.args)) := by
  induction fig with
  | nil => rfl
  | cons c fig ih =>
    unfold names at ih ⊢
    simp only [collect]
    have hc : cmdNames c = .ok (reqs c.args) := by
      have := h c List.mem_cons_self
      unfold cmdNames item
      unfold count at this
      split_ifs at this with hk
      · match hr : reqs c.args, this with
        | [a, b], _ => simp [hk]
      · match hr : reqs c.args, this with
        | [a], _ => simp [hk]
    rw [hc, ih (fun c' hc' => h c' (List.mem_cons_of_mem _ hc'))]
    rfl

theorem sum_eq_of_le {α : Type} (f g : α → Nat) (l : List α) (h : ∀ a ∈ l, f a ≤ g a) (hs : (l.map g).sum ≤ (l.map f).sum) : ∀ a ∈ l, g a = f a := by
  induction l with
  | nil => simp
  | cons a l ih =>
    simp only [List.map_cons, List.sum_cons] at hs
    have ha := h a List.mem_cons_self
    have hl : (l.map f).sum ≤ (l.map g).sum := by
      clear ih hs
      induction l with
      | nil => simp
      | cons b l ih =>
        simp only [List.map_cons, List.sum_cons]
        have := h b (by simp)
        have := ih (fun x hx => h x (by simp only [List.mem_cons] at hx ⊢; tauto))
        omega
    intro x hx
    rcases List.mem_cons.1 hx with rfl | hx
    · omega
    · exact ih (fun y hy => h y (List.mem_cons_of_mem _ hy)) (by omega) x hx

/-- C166.  Giving the files of a figure new names: it works if every command has one argument for every file, and then the figure has
the new names; with more arguments (`\plotfiddle` has seven) it ends with an IndexError. -/
theorem setNames_spec (fig : List Cmd) (old val : List Text) (h : names fig = .ok old) :
    (val.length ≠ old.length → setNames fig val = .error .value) ∧
    (val.length = old.length → (∀ c ∈ fig, (reqs c.args).length = count c.kind) →
      ∃ fig', setNames fig val = .ok fig' ∧ names fig' = .ok val ∧ fig'.map (·.kind) = fig.map (·.kind)) ∧
    (val.length = old.length → ¬ (∀ c ∈ fig, (reqs c.args).length = count c.kind) → setNames fig val = .error .index) := by
  obtain ⟨hc1, hc2⟩ := names_count fig h
  unfold setNames
  rw [h]
  simp only
  refine ⟨fun hv => by rw [if_pos hv], ?_, ?_⟩
  · intro hv hp
    rw [if_neg (by simpa using hv)]
    have hs : (fig.map (fun c => (reqs c.args).length)).sum = val.length := by
      rw [hv, hc1]
      congr 1
      exact List.map_congr_left hp
    obtain ⟨fig', h1, h2, h3, h4⟩ := (assignAll_spec fig val).1 (by omega)
    refine ⟨fig', h1, ?_, h2⟩
    rw [hs, List.take_length] at h4
    rw [names_plain fig' ?_, h4]
    have h5 : fig.map (fun c => (reqs c.args).length) = fig.map (fun c => count c.kind) := List.map_congr_left hp
    have h6 : fig'.map (fun c => count c.kind) = fig.map (fun c => count c.kind) := by
      have := congrArg (List.map count) h2
      rw [List.map_map, List.map_map] at this
      exact this
    rw [← h3, ← h6] at h5
    exact fun c hc => (List.map_inj_left.1 h5) c hc
  · intro hv hp
    rw [if_neg (by simpa using hv)]
    apply (assignAll_spec fig val).2
    rw [hv, hc1]
    by_contra hle
    exact hp (sum_eq_of_le (fun c => count c.kind) (fun c => (reqs c.args).length) fig hc2 (by omega))

/-- The loop over the figures. -/
theorem rename_inv (figs : List (List Cmd)) : ∀ {i : Nat} {m : List (Text × Text)} {r : List (List Cmd) × List (Text × Text)},
    rename i m figs = .ok r → ∃ olds : List (List Text), figs.map names = olds.map .ok ∧ (∀ o ∈ olds, o.length ≤ 159) ∧
      r.1.map names = (olds.zipIdx i).map (fun e => .ok (figNames e.2 e.1.length)) ∧ r.2 = update m (pairs i olds) ∧
      (∀ fig ∈ figs, ∀ c ∈ fig, (reqs c.args).length = count c.kind) := by
  induction figs with
  | nil =>
    intro i m r h
    simp only [rename] at h
    cases h
    exact ⟨[], rfl, by simp, rfl, rfl, by simp⟩
  | cons fig figs ih =>
    intro i m r h
    simp only [rename] at h
    cases hn : names fig with
    | error e => rw [hn] at h; cases h
    | ok old =>
      rw [hn] at h
      simp only [newNames_spec] at h
      by_cases hk : old.length ≤ 159
      · rw [if_pos hk] at h
        simp only at h
        obtain ⟨s1, s2, s3⟩ := setNames_spec fig old (figNames i old.length) hn
        by_cases hp : ∀ c ∈ fig, (reqs c.args).length = count c.kind
        · obtain ⟨fig', q1, q2, q3⟩ := s2 (figNames_length _ _) hp
          rw [q1] at h
          simp only at h
          cases hr : rename (i + 1) (update m (old.zip (figNames i old.length))) figs with
          | error e => rw [hr] at h; cases h
          | ok r' =>
            rw [hr] at h
            cases h
            obtain ⟨olds, t1, t2, t3, t4, t5⟩ := ih hr
            refine ⟨old :: olds, by simp [hn, t1], ?_, ?_, ?_, ?_⟩
            · intro o ho
              rcases List.mem_cons.1 ho with rfl | ho
              · exact hk
              · exact t2 o ho
            · simp [q2, t3, List.zipIdx_cons]
            · rw [t4]
              simp only [pairs]
              clear * -
              generalize old.zip (figNames i old.length) = a
              generalize pairs (i + 1) olds = b
              induction a generalizing m with
              | nil => rfl
              | cons e a iha => obtain ⟨x, y⟩ := e; simp only [List.cons_append, update]; exact iha
            · intro f hf
              rcases List.mem_cons.1 hf with rfl | hf
              · exact hp
              · exact t5 f hf
        · rw [s3 (figNames_length _ _) hp] at h; cases h
      · rw [if_neg hk] at h; cases h

/-! ## The run -/

/-- The .bbl file of a .tex file. -/
def bblName (tex : Text) : Text := tex.dropLast.dropLast.dropLast.dropLast ++ ".bbl".toList

/-- What a `\bibliography` command is replaced with, if there is exactly one. -/
def newBibs (bibs : List (List Arg)) : List (List Arg) := if bibs.length = 1 then bibs.map toMs else bibs

/-- C166.  The argument of a single bibliography becomes `ms`; several, or none, stay. -/
theorem newBibs_spec (t : Text) (l : List Arg) (bibs : List (List Arg)) :
    newBibs [.req t :: l] = [.req "ms".toList :: l] ∧ newBibs [.opt t :: l] = [.opt "ms".toList :: l] ∧ (bibs.length ≠ 1 → newBibs bibs = bibs) :=
  ⟨rfl, rfl, fun h => by rw [newBibs, if_neg h]⟩

/-- The copies of the bibliography. -/
def bibCopies (d tex : Text) : List (List Arg) → List (Text × Text)
  | [b] => (reqs b).head?.toList.flatMap
      (fun t => [(t ++ ".bib".toList, d ++ "/ms.bib".toList), (bblName tex, d ++ "/ms.bbl".toList)])
  | _ => []

theorem apj_inv {load : FS C → C → Except Err (Doc T)} {render : Doc T → C} {pack : List (Text × Item C) → C}
    {order : List (Text × Text) → List (Text × Text)} {fs fs' : FS C} {texfn nd d : Text} {over : Bool} {exts : List Text}
    (h : apj load render pack order fs texfn nd over exts = (fs', .ok d)) :
    ∃ c doc fs1 r fs2 fs3 bs, find fs (texName fs texfn) = some (.file c) ∧ load fs c = .ok doc ∧ chooseDir fs nd over = (fs1, .ok d) ∧
      rename 0 [] doc.figs = .ok r ∧ copies fs1 (apjFiles d (exts.map dotted) (order r.2)) = (fs2, none) ∧
      apjBib fs2 d (texName fs texfn) doc.bibs = (fs3, .ok bs) ∧
      archive pack (put fs3 (join d "ms.tex".toList) (.file (render ⟨r.1, bs, doc.rest⟩))) d (join d "ms.tar.gz".toList) = (fs', .ok d) := by
  unfold apj at h
  simp only at h
  cases hf : find fs (texName fs texfn) with
  | none => rw [hf] at h; cases h
  | some i =>
    rw [hf] at h
    cases i with
    | dir => cases h
    | file c =>
      simp only at h
      cases hl : load fs c with
      | error e => rw [hl] at h; cases h
      | ok doc =>
        rw [hl] at h
        simp only at h
        rcases hc : chooseDir fs nd over with ⟨fs1, e | d1⟩
        · rw [hc] at h; cases h
        · rw [hc] at h
          simp only at h
          cases hn : rename 0 [] doc.figs with
          | error e => rw [hn] at h; cases h
          | ok r =>
            rw [hn] at h
            simp only at h
            rcases hc2 : copies fs1 (apjFiles d1 (exts.map dotted) (order r.2)) with ⟨fs2, _ | e⟩
            · rw [hc2] at h
              simp only at h
              rcases hb : apjBib fs2 d1 (texName fs texfn) doc.bibs with ⟨fs3, e | bs⟩
              · rw [hb] at h; cases h
              · rw [hb] at h
                simp only at h
                have : d1 = d := by
                  unfold archive at h
                  split_ifs at h <;> cases h
                  rfl
                subst this
                exact ⟨c, doc, fs1, r, fs2, fs3, bs, rfl, hl, rfl, hn, hc2, hb, h⟩
            · rw [hc2] at h; cases h

theorem join_name {d : Text} (hd : Clean d) (b : Text) (hb : b.head? ≠ some '/') : join d b = d ++ '/' :: b := by
  unfold join
  rw [if_neg hb, if_neg]
  simp only [Bool.or_eq_true, decide_eq_true_eq, not_or]
  exact ⟨by simpa using hd.1, hd.2⟩

theorem apjBib_inv {fs fs' : FS C} {d tex : Text} {bibs bs : List (List Arg)} (hd : Clean d) (h : apjBib fs d tex bibs = (fs', .ok bs)) :
    bs = newBibs bibs ∧ copies fs (bibCopies d tex bibs) = (fs', none) ∧
    (∀ b, bibs = [b] → ∃ t, (reqs b).head? = some t ∧ exist fs (t ++ ".bib".toList) = true) := by
  match bibs, h with
  | [], h =>
    simp only [apjBib] at h
    cases h
    exact ⟨rfl, rfl, by intro b hb; cases hb⟩
  | [b], h =>
    simp only [apjBib] at h
    unfold item at h
    cases h0 : (reqs b)[0]? with
    | none => rw [h0] at h; cases h
    | some t =>
      rw [h0] at h
      simp only at h
      have hh : (reqs b).head? = some t := by rw [List.head?_eq_getElem?, h0]
      rw [join_name hd _ (by decide), join_name hd _ (by decide)] at h
      have e : bibCopies d tex [b] = [(t ++ ".bib".toList, d ++ '/' :: "ms.bib".toList), (tex.dropLast.dropLast.dropLast.dropLast ++ ".bbl".toList,
          d ++ '/' :: "ms.bbl".toList)] := by
        simp only [bibCopies, hh]
        rfl
      rw [e]
      rcases hc : copies fs [(t ++ ".bib".toList, d ++ '/' :: "ms.bib".toList), (tex.dropLast.dropLast.dropLast.dropLast ++ ".bbl".toList,
          d ++ '/' :: "ms.bbl".toList)] with ⟨fs2, _ | e⟩
      · rw [hc] at h
        simp only at h
        split_ifs at h with hex
        · cases h
          refine ⟨by simp [newBibs], rfl, ?_⟩
          intro b' hb'
          cases hb'
          exact ⟨t, hh, hex⟩
        · cases h
      · rw [hc] at h; cases h
  | a :: b :: l, h =>
    simp only [apjBib] at h
    cases h
    exact ⟨by simp [newBibs], rfl, by intro b' hb'; cases hb'⟩

theorem bibCopies_dest (d tex : Text) (bibs : List (List Arg)) : ∀ e ∈ bibCopies d tex bibs,
    e.2 = d ++ '/' :: "ms.bib".toList ∨ e.2 = d ++ '/' :: "ms.bbl".toList := by
  intro e he
  match bibs, he with
  | [b], he =>
    unfold bibCopies at he
    obtain ⟨t, _, he⟩ := List.mem_flatMap.1 he
    simp only [List.mem_cons, List.not_mem_nil, or_false] at he
    rcases he with rfl | rfl
    · exact Or.inl rfl
    · exact Or.inr rfl

theorem apjFiles_mem (d : Text) (exts : List Text) (m : List (Text × Text)) (s t : Text) : (s, t) ∈ apjFiles d exts m ↔
    ∃ e ∈ m, ∃ x ∈ exts, s = e.1 ++ x ∧ t = join d (e.2 ++ x) := by
  unfold apjFiles
  rw [List.mem_flatMap]
  constructor
  · rintro ⟨e, he, hm⟩
    obtain ⟨x, hx, heq⟩ := List.mem_map.1 hm
    cases heq
    exact ⟨e, he, x, hx, rfl, rfl⟩
  · rintro ⟨e, he, x, hx, rfl, rfl⟩
    exact ⟨e, he, List.mem_map.2 ⟨x, hx, rfl⟩⟩

theorem dict_names {olds : List (List Text)} (ho : ∀ o ∈ olds, o.length ≤ 159) {k v : Text} (h : (k, v) ∈ update [] (pairs 0 olds)) :
    ∃ (n j : Nat) (old : List Text), olds[n]? = some old ∧ old[j]? = some k ∧ v = newName n old.length j ∧ j < old.length ∧ old.length ≤ 159 := by
  rw [dict_mem] at h
  obtain ⟨n, j, old, h1, h2, h3⟩ := (mem_pairs _ _ _ _).1 (written_mem _ _ _ h)
  rw [Nat.zero_add] at h3
  exact ⟨n, j, old, h1, h2, h3, (List.getElem?_eq_some_iff.1 h2).1, ho old (List.mem_of_getElem? h1)⟩

theorem newName_join {d : Text} (hd : Clean d) (n k j : Nat) (x : Text) : join d (newName n k j ++ x) = d ++ '/' :: (newName n k j ++ x) :=
  join_name hd _ (by simp [newName])

/-- The destinations of the figure files. -/
theorem apjFiles_dest {d : Text} (hd : Clean d) {olds : List (List Text)} (ho : ∀ o ∈ olds, o.length ≤ 159) (exts : List Text)
    (order : List (Text × Text) → List (Text × Text)) (hperm : ∀ m, (order m).Perm m) :
    ∀ e ∈ apjFiles d exts (order (update [] (pairs 0 olds))), ∃ r, r.head? = some 'f' ∧ e.2 = d ++ '/' :: r := by
  rintro ⟨s, t⟩ he
  obtain ⟨⟨a, b⟩, hm, x, hx, rfl, rfl⟩ := (apjFiles_mem _ _ _ _ _).1 he
  obtain ⟨n, j, old, _, _, rfl, _, _⟩ := dict_names ho ((hperm _).mem_iff.1 hm)
  exact ⟨newName n old.length j ++ x, rfl, newName_join hd _ _ _ _⟩

theorem apjBib_frame {d : Text} (hd : Clean d) (fs : FS C) (tex p : Text) (bibs : List (List Arg)) (hp : below d p = false) :
    find (apjBib fs d tex bibs).1 p = find fs p := by
  have key : ∀ r, p ≠ d ++ '/' :: r := by
    rintro r rfl
    rw [(below_iff d (d ++ '/' :: r)).2 (Or.inr ⟨r, rfl⟩)] at hp; cases hp
  match bibs with
  | [] => rfl
  | a :: b :: l => rfl
  | [b] =>
    simp only [apjBib]
    unfold item
    cases h0 : (reqs b)[0]? with
    | none => rfl
    | some t =>
      simp only
      rw [join_name hd _ (by decide), join_name hd _ (by decide)]
      have hfr := copies_frame [(t ++ ".bib".toList, d ++ '/' :: "ms.bib".toList), (tex.dropLast.dropLast.dropLast.dropLast ++ ".bbl".toList,
          d ++ '/' :: "ms.bbl".toList)] fs p (by
        intro e he
        simp only [List.mem_cons, List.not_mem_nil, or_false] at he
        rcases he with rfl | rfl <;> exact Ne.symm (key _))
      split
      · rename_i fs' e hc
        rw [hc] at hfr
        exact hfr
      · rename_i fs' hc
        rw [hc] at hfr
        split_ifs <;> exact hfr

/-- C166.  Whatever happens, nothing is touched but the directory that was found. -/
theorem apj_outside (load : FS C → C → Except Err (Doc T)) (render : Doc T → C) (pack : List (Text × Item C) → C)
    (order : List (Text × Text) → List (Text × Text)) (fs : FS C) (texfn nd : Text) (over : Bool) (exts : List Text) (hw : WF fs)
    (hperm : ∀ m, (order m).Perm m) (hc : Clean (chop nd)) (p : Text)
    (h : find (apj load render pack order fs texfn nd over exts).1 p ≠ find fs p) : ∃ d, Chosen fs nd over d ∧ below d p = true := by
  unfold apj at h
  simp only at h
  cases hf : find fs (texName fs texfn) with
  | none => rw [hf] at h; exact absurd rfl h
  | some i =>
    rw [hf] at h
    cases i with
    | dir => exact absurd rfl h
    | file c =>
      simp only at h
      cases hl : load fs c with
      | error e => rw [hl] at h; exact absurd rfl h
      | ok doc =>
        rw [hl] at h
        simp only at h
        rcases hd : chooseDir fs nd over with ⟨fs1, e | d⟩
        · rw [hd] at h
          exact choose_frame fs nd over p (by rw [hd]; exact h)
        · rw [hd] at h
          simp only at h
          obtain ⟨k1, k2, k3, k4, k5⟩ := choose_ok hw hd
          have hcl := chosen_clean hc k1
          refine ⟨d, k1, ?_⟩
          by_contra hno
          have hbp : below d p = false := by simpa using hno
          have key : ∀ r, p ≠ d ++ '/' :: r := by
            rintro r rfl
            rw [(below_iff d (d ++ '/' :: r)).2 (Or.inr ⟨r, rfl⟩)] at hbp; cases hbp
          have hfs1 := k5 p hbp
          apply h
          cases hn : rename 0 [] doc.figs with
          | error e => exact hfs1
          | ok r =>
            simp only
            obtain ⟨olds, t1, t2, t3, t4, t5⟩ := rename_inv doc.figs hn
            have hcp := copies_frame (apjFiles d (exts.map dotted) (order r.2)) fs1 p (by
              intro e he
              rw [t4] at he
              obtain ⟨r', _, hr'⟩ := apjFiles_dest hcl t2 (exts.map dotted) order hperm e he
              rw [hr']
              exact Ne.symm (key _))
            rcases hc2 : copies fs1 (apjFiles d (exts.map dotted) (order r.2)) with ⟨fs2, _ | e⟩
            · rw [hc2] at hcp
              simp only at hcp ⊢
              have hbf := apjBib_frame hcl fs2 (texName fs texfn) p doc.bibs hbp
              rcases hb : apjBib fs2 d (texName fs texfn) doc.bibs with ⟨fs3, e | bs⟩
              · rw [hb] at hbf
                exact hbf.trans (hcp.trans hfs1)
              · rw [hb] at hbf
                simp only at hbf ⊢
                rw [archive_frame _ _ _ _ _ (by rw [join_name hcl _ (by decide)]; exact key _), find_put,
                  if_neg (by rw [join_name hcl _ (by decide)]; exact Ne.symm (key _)), hbf, hcp, hfs1]
            · rw [hc2] at hcp
              exact hcp.trans hfs1

/-- C166.  After a successful run the directory has been found as `Chosen` says; the figures of the document refer to their files by
number and letter; and the files in the directory are: those of the figures, under the last new name of each, the bibliography, the
document as `ms.tex`, and the archive. -/
theorem apj_exact (load : FS C → C → Except Err (Doc T)) (render : Doc T → C) (pack : List (Text × Item C) → C)
    (order : List (Text × Text) → List (Text × Text)) (fs fs' : FS C) (texfn nd d : Text) (over : Bool) (exts : List Text) (hw : WF fs) (hk : Keys fs)
    (hperm : ∀ m, (order m).Perm m) (hc : Clean (chop nd)) (h : apj load render pack order fs texfn nd over exts = (fs', .ok d)) :
    Chosen fs nd over d ∧ ∃ c doc olds figs, find fs (texName fs texfn) = some (.file c) ∧ load fs c = .ok doc ∧
      doc.figs.map names = olds.map .ok ∧ (∀ o ∈ olds, o.length ≤ 159) ∧
      figs.map names = (olds.zipIdx).map (fun e => .ok (figNames e.2 e.1.length)) ∧
      ((∀ o ∈ olds, ∀ fn ∈ o, ∀ e ∈ exts, below d (fn ++ dotted e) = false) → (∀ e ∈ bibCopies d (texName fs texfn) doc.bibs, below d e.1 = false) →
        ∃ mem : List (Text × Item C),
        (∀ p, find fs' p = (written (writes fs (apjFiles d (exts.map dotted) (order (update [] (pairs 0 olds)))) ++
            writes fs (bibCopies d (texName fs texfn) doc.bibs) ++ [(d ++ "/ms.tex".toList, .file (render ⟨figs, newBibs doc.bibs, doc.rest⟩)),
            (d ++ "/ms.tar.gz".toList, .file (pack mem))]) p).or (if p = d then some .dir else if below d p then none else find fs p)) ∧
        (∀ n i, (n, i) ∈ mem ↔ '/' ∉ n ∧ n ≠ "ms.tar.gz".toList ∧ find fs' (d ++ '/' :: n) = some i)) := by
  obtain ⟨c, doc, fs1, r, fs2, fs3, bs, h1, h2, h3, h4, h5, h6, h7⟩ := apj_inv h
  obtain ⟨k1, k2, k3, k4, k5⟩ := choose_ok hw h3
  have hcl := chosen_clean hc k1
  obtain ⟨olds, t1, t2, t3, t4, t5⟩ := rename_inv doc.figs h4
  rw [t4] at h5
  refine ⟨k1, c, doc, olds, r.1, h1, h2, t1, t2, t3, ?_⟩
  intro hs hsb
  obtain ⟨b1, b2, b3⟩ := apjBib_inv hcl h6
  rw [join_name hcl _ (by decide), join_name hcl _ (by decide), b1] at h7
  obtain ⟨rfl, _, hpl⟩ := archive_ok h7
  have base1 : ∀ p, find fs1 p = if p = d then some .dir else if below d p then none else find fs p := by
    intro p
    by_cases hp : p = d
    · rw [if_pos hp, hp, k3]
    · rw [if_neg hp]
      by_cases hb : below d p = true
      · rw [if_pos hb, k4 p hb hp]
      · rw [if_neg hb, k5 p (by simpa using hb)]
  have hbelow : ∀ r, below d (d ++ '/' :: r) = true := fun r => (below_iff d _).2 (Or.inr ⟨r, rfl⟩)
  have src : ∀ e ∈ apjFiles d (exts.map dotted) (order (update [] (pairs 0 olds))), below d e.1 = false := by
    rintro ⟨s, t⟩ he
    obtain ⟨⟨a, b⟩, hm, x, hx, rfl, rfl⟩ := (apjFiles_mem _ _ _ _ _).1 he
    obtain ⟨y, hy, rfl⟩ := List.mem_map.1 hx
    obtain ⟨n, j, old, h1, h2, _, _, _⟩ := dict_names t2 ((hperm _).mem_iff.1 hm)
    exact hs old (List.mem_of_getElem? h1) a (List.mem_of_getElem? h2) y hy
  have hdest := apjFiles_dest hcl t2 (exts.map dotted) order hperm
  have e5 := copies_exact (apjFiles d (exts.map dotted) (order (update [] (pairs 0 olds)))) fs1 (by
    intro e he e' he' heq
    obtain ⟨r, _, hr⟩ := hdest e' he'
    have := src e he
    rw [heq, hr, hbelow] at this
    cases this)
  rw [h5] at e5
  have f2 := e5.2.1 rfl
  rw [writes_congr (fs' := fs) _ (fun e he => k5 _ (src e he))] at f2
  have frame2 : ∀ p, below d p = false → find fs2 p = find fs p := by
    intro p hp
    have := copies_frame (apjFiles d (exts.map dotted) (order (update [] (pairs 0 olds)))) fs1 p (by
      intro e he heq
      obtain ⟨r, _, hr⟩ := hdest e he
      rw [← heq, hr, hbelow] at hp
      cases hp)
    rw [h5] at this
    simp only at this
    rw [this, k5 p hp]
  have e6 := copies_exact (bibCopies d (texName fs texfn) doc.bibs) fs2 (by
    intro e he e' he' heq
    have := hsb e he
    rcases bibCopies_dest _ _ _ e' he' with hr | hr <;> rw [heq, hr, hbelow] at this <;> cases this)
  rw [b2] at e6
  have f3 := e6.2.1 rfl
  rw [writes_congr (fs' := fs) _ (fun e he => frame2 _ (hsb e he))] at f3
  have hk3 : Keys fs3 := by
    have q1 := keys_choose hk nd over
    rw [h3] at q1
    have q2 := keys_copies (apjFiles d (exts.map dotted) (order (update [] (pairs 0 olds)))) q1
    rw [h5] at q2
    have q3 := keys_copies (bibCopies d (texName fs texfn) doc.bibs) q2
    rw [b2] at q3
    exact q3
  refine ⟨members (put fs3 (d ++ '/' :: "ms.tex".toList) (.file (render ⟨r.1, newBibs doc.bibs, doc.rest⟩))) d (d ++ '/' :: "ms.tar.gz".toList), ?_, ?_⟩
  · intro p
    rw [find_put, find_put, f3, f2, base1, written_append, written_append]
    simp only [written]
    have q1 : (d ++ "/ms.tar.gz".toList) = d ++ '/' :: "ms.tar.gz".toList := rfl
    have q2 : (d ++ "/ms.tex".toList) = d ++ '/' :: "ms.tex".toList := rfl
    rw [q1, q2]
    cases written (writes fs (bibCopies d (texName fs texfn) doc.bibs)) p <;>
    cases written (writes fs (apjFiles d (exts.map dotted) (order (update [] (pairs 0 olds))))) p <;> split_ifs <;> simp
  · intro n i
    rw [members_iff (keys_put hk3 _ _) d _ hcl.1]
    constructor
    · rintro ⟨a, b, e⟩
      exact ⟨a, by rintro rfl; exact b rfl, by rw [find_put, if_neg (Ne.symm b), e]⟩
    · rintro ⟨a, b, e⟩
      have b' : d ++ '/' :: n ≠ d ++ '/' :: "ms.tar.gz".toList := by
        intro he; exact b (by simpa using he)
      rw [find_put, if_neg (Ne.symm b')] at e
      exact ⟨a, b', e⟩

theorem written_all {A : Type} (l : List (Text × A)) (p : Text) (v : A) (h : ∀ x, (p, x) ∈ l → x = v) :
    written l p = if p ∈ l.map (·.1) then some v else none := by
  cases hw : written l p with
  | none => rw [if_neg ((written_none _ _).1 hw)]
  | some x =>
    have := written_mem _ _ _ hw
    rw [if_pos (List.mem_map.2 ⟨_, this, rfl⟩), h x this]

theorem dotted_head (e : Text) : ∃ t, dotted e = '.' :: t := by
  unfold dotted
  split_ifs with h
  · cases e with
    | nil => cases h
    | cons a l =>
      simp only [List.head?_cons, Option.some.injEq] at h
      exact ⟨l, by rw [h]⟩
  · exact ⟨e, rfl⟩

theorem name_ext {a b x y : Text} (ha : '.' ∉ a) (hb : '.' ∉ b) (h : a ++ dotted x = b ++ dotted y) : a = b ∧ dotted x = dotted y := by
  obtain ⟨t, ht⟩ := dotted_head x
  obtain ⟨u, hu⟩ := dotted_head y
  have key : ∀ c t : Text, '.' ∉ c → (c ++ '.' :: t).takeWhile (fun k => k != '.') = c := by
    intro c t hc
    rw [List.takeWhile_append_of_pos]
    · simp
    · intro k hk
      simp only [bne_iff_ne]
      rintro rfl
      exact hc hk
  have h1 : a = b := by
    rw [ht, hu] at h
    have := congrArg (List.takeWhile (fun k => k != '.')) h
    rwa [key a t ha, key b u hb] at this
  subst h1
  exact ⟨rfl, by simpa using h⟩

/-- C166.  The files of a figure: file number `j` of figure number `n` is in the directory under its number and letter, and the document
refers to it by it, if no later figure file has the same old name; otherwise it is not there. -/
theorem apj_figure (load : FS C → C → Except Err (Doc T)) (render : Doc T → C) (pack : List (Text × Item C) → C)
    (order : List (Text × Text) → List (Text × Text)) (fs fs' : FS C) (texfn nd d : Text) (over : Bool) (exts : List Text) (hw : WF fs) (hk : Keys fs)
    (hperm : ∀ m, (order m).Perm m) (hc : Clean (chop nd)) (h : apj load render pack order fs texfn nd over exts = (fs', .ok d)) :
    ∃ c doc olds, find fs (texName fs texfn) = some (.file c) ∧ load fs c = .ok doc ∧ doc.figs.map names = olds.map .ok ∧
      ((∀ o ∈ olds, ∀ fn ∈ o, ∀ e ∈ exts, below d (fn ++ dotted e) = false) → (∀ e ∈ bibCopies d (texName fs texfn) doc.bibs, below d e.1 = false) →
        ∀ (n j : Nat) (old : List Text) (a e : Text), olds[n]? = some old → old[j]? = some a → e ∈ exts →
          find fs' (d ++ '/' :: (newName n old.length j ++ dotted e)) =
            if written (pairs 0 olds) a = some (newName n old.length j) then find fs (a ++ dotted e) else none) := by
  obtain ⟨k1, c, doc, olds, figs, h1, h2, h3, h4, h5, h6⟩ := apj_exact load render pack order fs fs' texfn nd d over exts hw hk hperm hc h
  have hcl := chosen_clean hc k1
  refine ⟨c, doc, olds, h1, h2, h3, ?_⟩
  intro hs hsb n j old a e hn hj he
  obtain ⟨mem, q1, _⟩ := h6 hs hsb
  have hjl : j < old.length := (List.getElem?_eq_some_iff.1 hj).1
  have hkl : old.length ≤ 159 := h4 old (List.mem_of_getElem? hn)
  have hdot : '.' ∉ newName n old.length j := fun hm => (newName_chars hjl hkl _ hm).2 rfl
  have hfirst : ∀ r : Text, r.head? = some 'm' → d ++ '/' :: (newName n old.length j ++ dotted e) ≠ d ++ '/' :: r := by
    intro r hr heq
    have : newName n old.length j ++ dotted e = r := by simpa using heq
    rw [← this] at hr
    simp [newName] at hr
  have hbib : written (writes fs (bibCopies d (texName fs texfn) doc.bibs)) (d ++ '/' :: (newName n old.length j ++ dotted e)) = none := by
    rw [written_none]
    intro hm
    obtain ⟨⟨p, i⟩, hm, hp⟩ := List.mem_map.1 hm
    unfold writes at hm
    obtain ⟨y, hy, hy'⟩ := List.mem_filterMap.1 hm
    simp only [Option.map_eq_some_iff] at hy'
    obtain ⟨_, _, hy'⟩ := hy'
    cases hy'
    simp only at hp
    rcases bibCopies_dest _ _ _ y hy with hr | hr
    · rw [hr] at hp; exact hfirst _ (by decide) hp.symm
    · rw [hr] at hp; exact hfirst _ (by decide) hp.symm
  have hend : written [(d ++ "/ms.tex".toList, Item.file (render ⟨figs, newBibs doc.bibs, doc.rest⟩)), (d ++ "/ms.tar.gz".toList, .file (pack mem))]
      (d ++ '/' :: (newName n old.length j ++ dotted e)) = none := by
    rw [written_none]
    simp only [List.map_cons, List.map_nil, List.mem_cons, List.not_mem_nil, or_false, not_or]
    exact ⟨hfirst "ms.tex".toList (by decide), hfirst "ms.tar.gz".toList (by decide)⟩
  have hbel : below d (d ++ '/' :: (newName n old.length j ++ dotted e)) = true := (below_iff _ _).2 (Or.inr ⟨_, rfl⟩)
  rw [q1, written_append, written_append, hend, hbib, if_neg (by simp), if_pos hbel]
  simp only [Option.none_or, Option.or_none]
  -- the sources of this destination
  have huniq : ∀ s t, (s, t) ∈ apjFiles d (exts.map dotted) (order (update [] (pairs 0 olds))) →
      t = d ++ '/' :: (newName n old.length j ++ dotted e) → s = a ++ dotted e ∧ written (pairs 0 olds) a = some (newName n old.length j) := by
    intro s t hst ht
    obtain ⟨⟨a', b'⟩, hm, x, hx, rfl, rfl⟩ := (apjFiles_mem _ _ _ _ _).1 hst
    obtain ⟨y, hy, rfl⟩ := List.mem_map.1 hx
    have hm' := (hperm _).mem_iff.1 hm
    obtain ⟨n', j', old', g1, g2, rfl, g4, g5⟩ := dict_names h4 hm'
    simp only at ht
    rw [newName_join hcl] at ht
    have ht' : newName n' old'.length j' ++ dotted y = newName n old.length j ++ dotted e := by simpa using ht
    obtain ⟨e1, e2⟩ := name_ext (fun hm => (newName_chars g4 g5 _ hm).2 rfl) hdot ht'
    obtain ⟨e3, e4⟩ := newName_inj g4 g5 hjl hkl (by rintro rfl; rw [hn] at g1; cases g1; rfl) e1
    subst e3; subst e4
    rw [hn] at g1
    cases g1
    rw [hj] at g2
    cases g2
    rw [dict_mem] at hm'
    exact ⟨by rw [e2], hm'⟩
  by_cases hwr : written (pairs 0 olds) a = some (newName n old.length j)
  · rw [if_pos hwr]
    have hin : (a ++ dotted e, d ++ '/' :: (newName n old.length j ++ dotted e)) ∈ apjFiles d (exts.map dotted) (order (update [] (pairs 0 olds))) := by
      rw [apjFiles_mem]
      exact ⟨(a, newName n old.length j), (hperm _).mem_iff.2 ((dict_mem _ _ _).2 hwr), dotted e, List.mem_map.2 ⟨e, he, rfl⟩, rfl,
        (newName_join hcl _ _ _ _).symm⟩
    cases hfs : find fs (a ++ dotted e) with
    | none =>
      rw [written_none]
      intro hm
      obtain ⟨⟨p, i⟩, hm, hp⟩ := List.mem_map.1 hm
      unfold writes at hm
      obtain ⟨⟨s, t⟩, hy, hy'⟩ := List.mem_filterMap.1 hm
      simp only [Option.map_eq_some_iff] at hy'
      obtain ⟨i', hi', hy'⟩ := hy'
      cases hy'
      rw [(huniq s _ hy hp).1, hfs] at hi'
      cases hi'
    | some v =>
      rw [written_all _ _ v]
      · rw [if_pos]
        refine List.mem_map.2 ⟨(_, v), ?_, rfl⟩
        unfold writes
        refine List.mem_filterMap.2 ⟨_, hin, ?_⟩
        simp only [hfs, Option.map_some]
      · intro x hx
        unfold writes at hx
        obtain ⟨⟨s, t⟩, hy, hy'⟩ := List.mem_filterMap.1 hx
        simp only [Option.map_eq_some_iff] at hy'
        obtain ⟨i', hi', hy'⟩ := hy'
        simp only [Prod.mk.injEq] at hy'
        rw [(huniq s t hy hy'.1).1, hfs] at hi'
        rw [← hy'.2]
        exact (Option.some.inj hi').symm
  · rw [if_neg hwr, written_none]
    intro hm
    obtain ⟨⟨p, i⟩, hm, hp⟩ := List.mem_map.1 hm
    unfold writes at hm
    obtain ⟨⟨s, t⟩, hy, hy'⟩ := List.mem_filterMap.1 hm
    simp only [Option.map_eq_some_iff] at hy'
    obtain ⟨i', hi', hy'⟩ := hy'
    cases hy'
    exact hwr (huniq s _ hy hp).2

/-- C166.  If no file is used twice, every name is the last one: every figure has its files. -/
theorem names_distinct (olds : List (List Text)) (hnd : olds.flatten.Nodup) (n j : Nat) (old : List Text) (a : Text) (hn : olds[n]? = some old)
    (hj : old[j]? = some a) : written (pairs 0 olds) a = some (newName n old.length j) := by
  have hkey : ∀ (l : List (List Text)) (i : Nat), (pairs i l).map (·.1) = l.flatten := by
    intro l
    induction l with
    | nil => intro i; rfl
    | cons o l ih =>
      intro i
      simp only [pairs, List.map_append, ih, List.flatten_cons]
      congr 1
      rw [List.map_fst_zip]
      rw [figNames_length]
  have hmem : (a, newName n old.length j) ∈ pairs 0 olds := (mem_pairs _ _ _ _).2 ⟨n, j, old, hn, hj, by rw [Nat.zero_add]⟩
  have hu : ∀ (l : List (Text × Text)), (l.map (·.1)).Nodup → ∀ x y z, (x, y) ∈ l → (x, z) ∈ l → y = z := by
    intro l
    induction l with
    | nil => intro _ x y z h; cases h
    | cons e l ih =>
      intro hd x y z hy hz
      rw [List.map_cons, List.nodup_cons] at hd
      rcases List.mem_cons.1 hy with rfl | hy' <;> rcases List.mem_cons.1 hz with hz | hz
      · cases hz; rfl
      · exact absurd (List.mem_map.2 ⟨_, hz, rfl⟩) hd.1
      · subst hz; exact absurd (List.mem_map.2 ⟨(x, y), hy', rfl⟩ : x ∈ l.map (·.1)) hd.1
      · exact ih hd.2 x y z hy' hz
  rw [written_all _ _ (newName n old.length j), if_pos (List.mem_map.2 ⟨_, hmem, rfl⟩)]
  intro x hx
  exact hu _ (by rw [hkey]; exact hnd) _ _ _ hx hmem

/-- C166 (defects).  The run never succeeds with a figure command that has more arguments than files, like `\plotfiddle`, nor with a
bibliography whose .bib file is missing, even if there is a .bbl file. -/
theorem apj_needs (load : FS C → C → Except Err (Doc T)) (render : Doc T → C) (pack : List (Text × Item C) → C)
    (order : List (Text × Text) → List (Text × Text)) (fs fs' : FS C) (texfn nd d : Text) (over : Bool) (exts : List Text) (hw : WF fs)
    (hperm : ∀ m, (order m).Perm m) (hc : Clean (chop nd)) (h : apj load render pack order fs texfn nd over exts = (fs', .ok d)) :
    ∃ c doc, find fs (texName fs texfn) = some (.file c) ∧ load fs c = .ok doc ∧
      (∀ fig ∈ doc.figs, ∀ cmd ∈ fig, (reqs cmd.args).length = count cmd.kind) ∧
      (∀ b t, doc.bibs = [b] → (reqs b).head? = some t → below d (t ++ ".bib".toList) = false → exist fs (t ++ ".bib".toList) = true) := by
  obtain ⟨c, doc, fs1, r, fs2, fs3, bs, h1, h2, h3, h4, h5, h6, h7⟩ := apj_inv h
  obtain ⟨k1, k2, k3, k4, k5⟩ := choose_ok hw h3
  have hcl := chosen_clean hc k1
  obtain ⟨olds, t1, t2, t3, t4, t5⟩ := rename_inv doc.figs h4
  rw [t4] at h5
  obtain ⟨b1, b2, b3⟩ := apjBib_inv hcl h6
  refine ⟨c, doc, h1, h2, t5, ?_⟩
  intro b t hb ht hbel
  obtain ⟨t', ht', hex⟩ := b3 b hb
  rw [ht] at ht'
  cases ht'
  have := copies_frame (apjFiles d (exts.map dotted) (order (update [] (pairs 0 olds)))) fs1 (t ++ ".bib".toList) (by
    intro e he heq
    obtain ⟨r, _, hr⟩ := apjFiles_dest hcl t2 (exts.map dotted) order hperm e he
    rw [← heq, hr, (below_iff d (d ++ '/' :: r)).2 (Or.inr ⟨r, rfl⟩)] at hbel
    cases hbel)
  rw [h5] at this
  unfold exist at hex ⊢
  simp only at this
  rw [this, k5 _ hbel] at hex
  exact hex

/-! ## A paper -/

/-- A figure with two files, and the first of them again in another figure. -/
def twice : Doc Nat := ⟨[[⟨.plottwo, [.req "a/plot".toList, .req "b/plot".toList]⟩], [⟨.plotone, [.req "a/plot".toList]⟩]], [], 0⟩

/-- The file used twice is only there for the second figure. -/
theorem example_apj :
    apj (fun _ _ => .ok twice) (fun _ => 10) (fun l => 20 + l.length) id paper "p".toList "sub".toList true ["eps".toList] =
      ([("sub/ms.tar.gz".toList, .file 23), ("sub/ms.tex".toList, .file 10), ("sub/f1b.eps".toList, .file 4),
        ("sub/f2.eps".toList, .file 2), ("sub".toList, .dir)] ++ paper, .ok "sub".toList) := by
  decide +kernel

end Verif.PubPrep

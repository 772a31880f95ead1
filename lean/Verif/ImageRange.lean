import Mathlib.Data.Rat.Floor
import Mathlib.Data.List.Sort
import Mathlib.Algebra.Order.Floor.Ring
import Mathlib.Tactic.Linarith
import Mathlib.Tactic.FieldSimp
import Mathlib.Tactic.Ring
import Mathlib.Tactic.Push

/-!
# The display range of an image (astropysics/ccd.py, `CCDImage.plotImage`, 531-640) (C221)

Which pixel values are shown as black and white for the codes of `valrange`.  The code is taken as parsed;
pixel values are exact numbers, already scaled.
-/

namespace Verif.ImageRange

/-- Python 2's `int(round(x))`: a half goes away from zero (ccd.py:594, 602). -/
def pyRound (x : ℚ) : ℤ := if 0 ≤ x then ⌊x + 1/2⌋ else ⌈x - 1/2⌉

/-- A code `'n#'`, `'n#,#'`, `'p#'` or `'p#,#'`: with one number both are it (ccd.py:584-604). -/
inductive Code
  | n (low up : ℚ)
  | p (low up : ℚ)
  deriving DecidableEq

/-- How many of `size` values are ignored at the low and at the high end; a negative number counts as 0
(ccd.py:585-602 and 608-611). -/
def ignored (size : ℕ) : Code → ℕ × ℕ
  | .n low up => ((pyRound low).toNat, (pyRound up).toNat)
  | .p low up => ((pyRound ((100 - low) * size / 200)).toNat, (pyRound ((100 - up) * size / 200)).toNat)

/-- `sortval` (ccd.py:606). -/
def sortval (vals : List ℚ) : List ℚ := vals.insertionSort (· ≤ ·)

/-- The range for a code and the values it is taken from (ccd.py:606-620); `sortval[-nigup]` is entry `size - nigup`.
No values at all is an `IndexError`. -/
def codeRange (c : Code) (vals : List ℚ) : Option (ℚ × ℚ) :=
  let s := sortval vals
  let ig := ignored s.length c
  if ig.1 + ig.2 ≥ s.length then
    match s[0]?, s[s.length - 1]? with
    | some a, some b => some (a, b)
    | _, _ => none
  else
    match s[ig.1]?, s[if ig.2 = 0 then s.length - 1 else s.length - ig.2]? with
    | some a, some b => some (a, b)
    | _, _ => none

/-- `'i#,#,...'`: the extremes of the values not listed (ccd.py:624-629); none left is a `ValueError`. -/
def ignoring (ig vals : List ℚ) : Option (ℚ × ℚ) :=
  match vals.filter (fun v => ig.all fun x => decide (v ≠ x)) with
  | [] => none
  | a :: l => some (l.foldl min a, l.foldl max a)

/-- `'s#'`: so many standard deviations about the median (ccd.py:566-575); both are parameters here. -/
def sigma (k median std : ℚ) : ℚ × ℚ := (median - k * std, median + k * std)

/-- The cached ranges `_fstatd` of the global codes (ccd.py:577-578, 617-618): the answer, the cache after it.
`full` are the values of the whole image.  `none` for the answer is an error.  Simplified: a cache that is not there (`None`)
is an error in the code and not modelled. -/
def globalRange (c : Code) (cache : List (Code × (ℚ × ℚ))) (full : List ℚ) : Option (ℚ × ℚ) × List (Code × (ℚ × ℚ)) :=
  match cache.lookup c with
  | some r => (some r, cache)
  | none =>
    let s := sortval full
    let ig := ignored s.length c
    match codeRange c full with
    | none => (none, cache)
    | some r => (some r, if ig.1 + ig.2 ≥ s.length then cache else (c, r) :: cache)

/-- `Normalize(lo, hi)` applied to a value. -/
def normalize (r : ℚ × ℚ) (v : ℚ) : ℚ := (v - r.1) / (r.2 - r.1)

/-- The shade of a pixel (ccd.py:635-637 and 659): with `invert` the value and the range are negated. -/
def shade (invert : Bool) (r : ℚ × ℚ) (v : ℚ) : ℚ :=
  if invert then normalize (-1 * r.2, -1 * r.1) (-v) else normalize r v

/-! ## Sorted lists -/

theorem sortval_perm (vals : List ℚ) : (sortval vals).Perm vals := List.perm_insertionSort _ _

theorem sortval_sorted (vals : List ℚ) : (sortval vals).Pairwise (· ≤ ·) := by
  exact List.pairwise_insertionSort (· ≤ ·) vals

theorem sorted_mono {l : List ℚ} (hs : l.Pairwise (· ≤ ·)) {i j : ℕ} (hij : i ≤ j) (hj : j < l.length) :
    l[i]'(by omega) ≤ l[j] := by
  rcases Nat.lt_or_ge i j with h | h
  · exact List.pairwise_iff_getElem.1 hs i j (by omega) hj h
  · have : i = j := by omega
    subst this; exact le_rfl

theorem count_below {l : List ℚ} (hs : l.Pairwise (· ≤ ·)) {k : ℕ} (hk : k < l.length) :
    l.countP (fun v => decide (v < l[k])) ≤ k ∧ k + 1 ≤ l.countP (fun v => decide (v ≤ l[k])) := by
  constructor
  · have hap : l.countP (fun c => decide (c < l[k])) =
        (l.take k).countP (fun c => decide (c < l[k])) + (l.drop k).countP (fun c => decide (c < l[k])) := by
      rw [← List.countP_append, List.take_append_drop]
    have hz : (l.drop k).countP (fun c => decide (c < l[k])) = 0 := by
      rw [List.countP_eq_zero]
      intro c hc
      obtain ⟨m, hm, rfl⟩ := List.getElem_of_mem hc
      simp only [List.getElem_drop, decide_eq_true_eq, not_lt]
      simp only [List.length_drop] at hm
      exact sorted_mono hs (by omega) (by omega)
    have h1 : (l.take k).countP (fun c => decide (c < l[k])) ≤ k := List.countP_le_length.trans (by simp)
    omega
  · have h2 : (l.take (k+1)).countP (fun c => decide (c ≤ l[k])) = k + 1 := by
      rw [List.countP_eq_length.2]
      · simp; omega
      · intro c hc
        obtain ⟨m, hm, rfl⟩ := List.getElem_of_mem hc
        simp only [List.length_take] at hm
        simp only [List.getElem_take, decide_eq_true_eq]
        exact sorted_mono hs (by omega) hk
    have h3 : (l.take (k+1)).countP (fun c => decide (c ≤ l[k])) ≤ l.countP (fun c => decide (c ≤ l[k])) :=
      (List.take_sublist _ _).countP_le
    omega

theorem count_above {l : List ℚ} (hs : l.Pairwise (· ≤ ·)) {k : ℕ} (hk : k < l.length) :
    l.countP (fun v => decide (l[k] < v)) ≤ l.length - 1 - k ∧ l.length - k ≤ l.countP (fun v => decide (l[k] ≤ v)) := by
  constructor
  · have hap : l.countP (fun c => decide (l[k] < c)) =
        (l.take (k+1)).countP (fun c => decide (l[k] < c)) + (l.drop (k+1)).countP (fun c => decide (l[k] < c)) := by
      rw [← List.countP_append, List.take_append_drop]
    have hz : (l.take (k+1)).countP (fun c => decide (l[k] < c)) = 0 := by
      rw [List.countP_eq_zero]
      intro c hc
      obtain ⟨m, hm, rfl⟩ := List.getElem_of_mem hc
      simp only [List.length_take] at hm
      simp only [List.getElem_take, decide_eq_true_eq, not_lt]
      exact sorted_mono hs (by omega) hk
    have h1 : (l.drop (k+1)).countP (fun c => decide (l[k] < c)) ≤ l.length - 1 - k :=
      List.countP_le_length.trans (by simp; omega)
    omega
  · have h2 : (l.drop k).countP (fun c => decide (l[k] ≤ c)) = l.length - k := by
      rw [List.countP_eq_length.2]
      · simp
      · intro c hc
        obtain ⟨m, hm, rfl⟩ := List.getElem_of_mem hc
        simp only [List.length_drop] at hm
        simp only [List.getElem_drop, decide_eq_true_eq]
        exact sorted_mono hs (by omega) (by omega)
    have h3 : (l.drop k).countP (fun c => decide (l[k] ≤ c)) ≤ l.countP (fun c => decide (l[k] ≤ c)) :=
      (List.drop_sublist _ _).countP_le
    omega

/-! ## Theorems -/

/-- **C221.** For a code that leaves something (`low` and `up` values ignored, together fewer than there are), the range is made of two of the values;
at most `low` values are below its lower end while more than `low` are not above it; and at its upper end *fewer* than asked for are left out: at most `up - 1`
values are above it, and at least `up` values are at or above it.  So `n1` and `n0` end at the same, greatest value. -/
theorem leaves_out (c : Code) (vals : List ℚ) (low up : ℕ) (hi : ignored vals.length c = (low, up)) (h : low + up < vals.length) :
    ∃ a b, codeRange c vals = some (a, b) ∧ a ∈ vals ∧ b ∈ vals ∧ a ≤ b ∧
      vals.countP (fun v => decide (v < a)) ≤ low ∧ low + 1 ≤ vals.countP (fun v => decide (v ≤ a)) ∧
      vals.countP (fun v => decide (b < v)) ≤ up - 1 ∧ max 1 up ≤ vals.countP (fun v => decide (b ≤ v)) := by
  have hp := sortval_perm vals
  have hl := hp.length_eq
  have hs := sortval_sorted vals
  have h1 : low < (sortval vals).length := by omega
  obtain ⟨k, hk, hkd⟩ : ∃ k, (if up = 0 then (sortval vals).length - 1 else (sortval vals).length - up) = k ∧ k = (sortval vals).length - max 1 up := by
    refine ⟨_, rfl, ?_⟩
    split <;> omega
  have h2 : k < (sortval vals).length := by omega
  refine ⟨(sortval vals)[low], (sortval vals)[k], ?_, ?_, ?_, ?_, ?_, ?_, ?_, ?_⟩
  · unfold codeRange
    simp only [hl, hi]
    rw [if_neg (by omega)]
    rw [hl] at hk
    simp only [hk, List.getElem?_eq_getElem h1, List.getElem?_eq_getElem h2]
  · exact hp.mem_iff.1 (List.getElem_mem h1)
  · exact hp.mem_iff.1 (List.getElem_mem h2)
  · exact sorted_mono hs (by omega) h2
  · rw [← hp.countP_eq]; exact (count_below hs h1).1
  · rw [← hp.countP_eq]; exact (count_below hs h1).2
  · rw [← hp.countP_eq]; have := (count_above hs h2).1; omega
  · rw [← hp.countP_eq]; have := (count_above hs h2).2; omega

/-- **C221.** A code that would ignore everything shows everything, from the least to the greatest value; only an image without pixels fails. -/
theorem all_ignored (c : Code) (vals : List ℚ) (h : vals.length ≤ (ignored vals.length c).1 + (ignored vals.length c).2) :
    (vals = [] → codeRange c vals = none) ∧
    (vals ≠ [] → ∃ a b, codeRange c vals = some (a, b) ∧ a ∈ vals ∧ b ∈ vals ∧ ∀ v ∈ vals, a ≤ v ∧ v ≤ b) := by
  have hp := sortval_perm vals
  have hl := hp.length_eq
  have hs := sortval_sorted vals
  constructor
  · rintro rfl
    have hn : sortval [] = [] := List.length_eq_zero_iff.1 hl
    simp [codeRange, hn]
  · intro hne
    have h0 : 0 < vals.length := List.length_pos_iff.2 hne
    have h1 : 0 < (sortval vals).length := by omega
    have h2 : (sortval vals).length - 1 < (sortval vals).length := by omega
    refine ⟨(sortval vals)[0], (sortval vals)[(sortval vals).length - 1], ?_, ?_, ?_, ?_⟩
    · unfold codeRange
      simp only
      rw [if_pos (by rw [hl]; exact h), List.getElem?_eq_getElem h1, List.getElem?_eq_getElem h2]
    · exact hp.mem_iff.1 (List.getElem_mem h1)
    · exact hp.mem_iff.1 (List.getElem_mem h2)
    · intro v hv
      obtain ⟨i, hi, rfl⟩ := List.getElem_of_mem (hp.mem_iff.2 hv)
      exact ⟨sorted_mono hs (by omega) hi, sorted_mono hs (by omega) h2⟩

theorem pyRound_near (x : ℚ) : |(pyRound x : ℚ) - x| ≤ 1/2 := by
  unfold pyRound
  split
  · have h1 := Int.floor_le (x + 1/2)
    have h2 := Int.lt_floor_add_one (x + 1/2)
    rw [abs_le]; constructor <;> linarith
  · have h1 := Int.le_ceil (x - 1/2)
    have h2 := Int.ceil_lt_add_one (x - 1/2)
    rw [abs_le]; constructor <;> linarith

/-- **C221.** What a code ignores: `n` so many, as whole numbers (a negative number none); `p` half of what the percentage leaves, at each end, to within half a value;
`p100` nothing at all, `p0` all. -/
theorem ignored_spec :
    (∀ (size a b : ℕ), ignored size (.n a b) = (a, b)) ∧
    (∀ (size : ℕ) (a b : ℚ), a < 0 → b < 0 → ignored size (.n a b) = (0, 0)) ∧
    (∀ (size : ℕ) (a b : ℚ), a ≤ 100 → b ≤ 100 →
      |((ignored size (.p a b)).1 : ℚ) - (100 - a) / 100 * size / 2| ≤ 1/2 ∧
      |((ignored size (.p a b)).2 : ℚ) - (100 - b) / 100 * size / 2| ≤ 1/2) ∧
    (∀ size : ℕ, ignored size (.p 100 100) = (0, 0)) ∧
    (∀ size : ℕ, size ≤ (ignored size (.p 0 0)).1 + (ignored size (.p 0 0)).2) := by
  have hnat : ∀ a : ℕ, (pyRound a).toNat = a := by
    intro a
    have : pyRound (a : ℚ) = a := by
      unfold pyRound
      rw [if_pos (by positivity), Int.floor_eq_iff]
      constructor <;> push_cast <;> linarith
    rw [this]; simp
  have hneg : ∀ a : ℚ, a < 0 → (pyRound a).toNat = 0 := by
    intro a ha
    rw [Int.toNat_eq_zero]
    unfold pyRound
    rw [if_neg (not_le.2 ha), Int.ceil_le]
    push_cast; linarith
  have hp : ∀ (size : ℕ) (a : ℚ), a ≤ 100 → |(((pyRound ((100 - a) * size / 200)).toNat : ℕ) : ℚ) - (100 - a) / 100 * size / 2| ≤ 1/2 := by
    intro size a ha
    have hx : 0 ≤ (100 - a) * size / 200 := by
      have : 0 ≤ 100 - a := by linarith
      positivity
    have hnn : 0 ≤ pyRound ((100 - a) * size / 200) := by
      unfold pyRound
      rw [if_pos hx]
      exact Int.floor_nonneg.2 (by linarith)
    have h2 : (((pyRound ((100 - a) * size / 200)).toNat : ℕ) : ℚ) = (pyRound ((100 - a) * size / 200) : ℚ) := by
      exact_mod_cast congrArg (fun z : ℤ => (z : ℚ)) (Int.toNat_of_nonneg hnn)
    have h3 := pyRound_near ((100 - a) * size / 200)
    rw [h2]
    have : (100 - a) / 100 * (size : ℚ) / 2 = (100 - a) * size / 200 := by ring
    rw [this]; exact h3
  refine ⟨?_, ?_, ?_, ?_, ?_⟩
  · intro size a b; simp [ignored, hnat]
  · intro size a b ha hb; simp [ignored, hneg a ha, hneg b hb]
  · intro size a b ha hb; exact ⟨hp size a ha, hp size b hb⟩
  · intro size
    have : pyRound ((100 - 100) * (size : ℚ) / 200) = 0 := by
      rw [show (100 - 100) * (size : ℚ) / 200 = 0 by ring]
      decide +kernel
    simp only [ignored, this, Int.toNat_zero]
  · intro size
    have key : (size : ℚ) / 2 ≤ (((pyRound ((100 - 0) * (size : ℚ) / 200)).toNat : ℕ) : ℚ) := by
      rw [show (100 - 0) * (size : ℚ) / 200 = size / 2 by ring]
      unfold pyRound
      rw [if_pos (by positivity)]
      have hf : (⌊(size : ℚ) / 2 + 1/2⌋ : ℤ) = ((size + 1) / 2 : ℕ) := by
        rw [Int.floor_eq_iff]
        have h1 : 2 * ((size + 1) / 2) ≤ size + 1 := by omega
        have h2 : size + 1 < 2 * ((size + 1) / 2) + 2 := by omega
        have h1' : (2 : ℚ) * ((size + 1) / 2 : ℕ) ≤ size + 1 := by exact_mod_cast h1
        have h2' : (size : ℚ) + 1 < 2 * ((size + 1) / 2 : ℕ) + 2 := by exact_mod_cast h2
        constructor
        · rw [Int.cast_natCast]; linarith
        · rw [Int.cast_natCast]; linarith
      rw [hf, Int.toNat_natCast]
      have h3 : size ≤ 2 * ((size + 1) / 2) := by omega
      have h3' : (size : ℚ) ≤ 2 * ((size + 1) / 2 : ℕ) := by exact_mod_cast h3
      linarith
    have : (size : ℚ) ≤ (((ignored size (.p 0 0)).1 + (ignored size (.p 0 0)).2 : ℕ) : ℚ) := by
      simp only [ignored, Nat.cast_add]; linarith
    exact_mod_cast this

/-- **C221.** Ignoring values: the range is exactly spanned by the values not listed; it fails only if none is left. -/
theorem ignoring_spec (ig vals : List ℚ) :
    (ignoring ig vals = none ↔ ∀ v ∈ vals, v ∈ ig) ∧
    ∀ a b, ignoring ig vals = some (a, b) →
      (a ∈ vals ∧ a ∉ ig) ∧ (b ∈ vals ∧ b ∉ ig) ∧ ∀ v ∈ vals, v ∉ ig → a ≤ v ∧ v ≤ b := by
  have hf : ∀ v, v ∈ vals.filter (fun v => ig.all fun x => decide (v ≠ x)) ↔ v ∈ vals ∧ v ∉ ig := by
    intro v
    simp only [List.mem_filter, List.all_eq_true, decide_eq_true_eq]
    refine and_congr_right fun _ => ⟨fun h hm => h v hm rfl, fun h x hx he => h (he ▸ hx)⟩
  have hmin : ∀ (l : List ℚ) (a : ℚ), (l.foldl min a ∈ a :: l) ∧ l.foldl min a ≤ a ∧ ∀ v ∈ l, l.foldl min a ≤ v := by
    intro l
    induction l with
    | nil => intro a; simp
    | cons c l ih =>
      intro a
      obtain ⟨h1, h2, h3⟩ := ih (min a c)
      refine ⟨?_, h2.trans (min_le_left _ _), ?_⟩
      · rcases List.mem_cons.1 h1 with h | h
        · simp only [List.foldl_cons]; rw [h]
          rcases min_choice a c with h' | h' <;> simp [h']
        · simp only [List.foldl_cons]; simp [h]
      · intro v hv
        rcases List.mem_cons.1 hv with h | h
        · subst h; exact h2.trans (min_le_right _ _)
        · exact h3 v h
  have hmax : ∀ (l : List ℚ) (a : ℚ), (l.foldl max a ∈ a :: l) ∧ a ≤ l.foldl max a ∧ ∀ v ∈ l, v ≤ l.foldl max a := by
    intro l
    induction l with
    | nil => intro a; simp
    | cons c l ih =>
      intro a
      obtain ⟨h1, h2, h3⟩ := ih (max a c)
      refine ⟨?_, (le_max_left _ _).trans h2, ?_⟩
      · rcases List.mem_cons.1 h1 with h | h
        · simp only [List.foldl_cons]; rw [h]
          rcases max_choice a c with h' | h' <;> simp [h']
        · simp only [List.foldl_cons]; simp [h]
      · intro v hv
        rcases List.mem_cons.1 hv with h | h
        · subst h; exact (le_max_right _ _).trans h2
        · exact h3 v h
  unfold ignoring
  generalize vals.filter (fun v => ig.all fun x => decide (v ≠ x)) = w at *
  cases w with
  | nil =>
    refine ⟨⟨fun _ v hv => ?_, fun _ => rfl⟩, ?_⟩
    · by_contra hc
      have := (hf v).2 ⟨hv, hc⟩
      cases this
    · intro a b h; cases h
  | cons c l =>
    refine ⟨⟨fun h => by simp at h, fun h => ?_⟩, ?_⟩
    · have := (hf c).1 List.mem_cons_self
      exact absurd (h c this.1) this.2
    · intro a b h
      simp only [Option.some.injEq, Prod.mk.injEq] at h
      obtain ⟨rfl, rfl⟩ := h
      obtain ⟨p1, p2, p3⟩ := hmin l c
      obtain ⟨q1, q2, q3⟩ := hmax l c
      refine ⟨(hf _).1 p1, (hf _).1 q1, ?_⟩
      intro v hv hn
      rcases List.mem_cons.1 ((hf v).2 ⟨hv, hn⟩) with h | h
      · subst h; exact ⟨p2, q2⟩
      · exact ⟨p3 v h, q3 v h⟩

/-- **C221.** A range in standard deviations is centred on the median and `2 k` of them wide. -/
theorem sigma_spec (k median std : ℚ) :
    ((sigma k median std).1 + (sigma k median std).2) / 2 = median ∧ (sigma k median std).2 - (sigma k median std).1 = 2 * k * std := by
  constructor <;> simp only [sigma] <;> ring

/-- **C221.** Inverting turns every shade into its complement; the ends of the range are black and white. -/
theorem invert_complement (r : ℚ × ℚ) (h : r.1 < r.2) (v : ℚ) :
    shade true r v = 1 - shade false r v ∧ shade false r r.1 = 0 ∧ shade false r r.2 = 1 ∧
    ∀ w, v < w → shade false r v < shade false r w := by
  have hd : r.2 - r.1 ≠ 0 := by intro h'; linarith
  have hpos : 0 < r.2 - r.1 := by linarith
  refine ⟨?_, ?_, ?_, ?_⟩
  · have h1 : -1 * r.1 - -1 * r.2 = r.2 - r.1 := by ring
    simp only [shade, normalize, if_true, h1]
    simp only [Bool.false_eq_true, if_false]
    rw [eq_sub_iff_add_eq, ← add_div, div_eq_one_iff_eq hd]
    ring
  · simp [shade, normalize]
  · simp only [shade, normalize]; exact div_self hd
  · intro w hw
    simp only [shade, normalize]
    exact div_lt_div_of_pos_right (by linarith) hpos

/-- **C221.** A global code is answered from the whole image the first time; what was answered then is answered again for the same code, whatever
the image has become, as long as the cache is not cleared, and asking for other codes does not change that. -/
theorem global_cached (c : Code) (cache : List (Code × (ℚ × ℚ))) (full : List ℚ) (hc : cache.lookup c = none) :
    (globalRange c cache full).1 = codeRange c full ∧
    ((ignored full.length c).1 + (ignored full.length c).2 < full.length →
      ∀ (d : Code) (full' full'' : List ℚ),
        (globalRange c (globalRange d (globalRange c cache full).2 full').2 full'').1 = codeRange c full) := by
  have hl := (sortval_perm full).length_eq
  constructor
  · simp only [globalRange, hc]
    cases codeRange c full <;> rfl
  · intro hlt d full' full''
    obtain ⟨a, b, hab, _⟩ := leaves_out c full _ _ rfl hlt
    have h1 : (globalRange c cache full).2 = (c, (a, b)) :: cache := by
      simp only [globalRange, hc, hab, hl]
      rw [if_neg (by omega)]
    have keep : ∀ k : List (Code × (ℚ × ℚ)), k.lookup c = some (a, b) → (globalRange d k full').2.lookup c = some (a, b) := by
      intro k hk
      unfold globalRange
      cases hd : k.lookup d with
      | some r => simpa using hk
      | none =>
        have hne : c ≠ d := by intro h; rw [h, hd] at hk; cases hk
        simp only
        cases codeRange d full' with
        | none => simpa using hk
        | some r =>
          simp only
          split
          · exact hk
          · rw [List.lookup_cons]
            have : (c == d) = false := by simpa using hne
            rw [this]; exact hk
    have h2 := keep _ (show ((globalRange c cache full).2).lookup c = some (a, b) by rw [h1]; simp)
    rw [hab]
    generalize (globalRange d (globalRange c cache full).2 full').2 = k at h2
    simp [globalRange, h2]

/-! ## Concrete cases -/

/-- Ignoring one value at each end: the lower outlier goes, the upper one stays. -/
example : codeRange (.n 1 1) [5, 1, 100, 3, 2] = some (2, 100) := by decide +kernel

example : codeRange (.n 1 2) [5, 1, 100, 3, 2] = some (2, 5) := by decide +kernel

example : codeRange (.p 60 60) [5, 1, 100, 3, 2] = some (2, 100) := by decide +kernel

example : codeRange (.p 0 0) [5, 1, 100, 3, 2] = some (1, 100) := by decide +kernel

example : ignoring [100, 0] [5, 1, 100, 3, 0] = some (1, 5) := by decide +kernel

example : ignored 5 (.n 1 1) = (1, 1) ∧ 1 + 1 < [5, 1, 100, 3, 2].length := by decide +kernel

end Verif.ImageRange

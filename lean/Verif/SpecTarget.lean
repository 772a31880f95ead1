import Mathlib.Analysis.SpecialFunctions.Pow.Real
import Mathlib.Data.Finset.Lattice.Fold
import Mathlib.Data.Fintype.Basic
import Mathlib.Algebra.Order.Floor.Ring
import Mathlib.Tactic.Linarith
import Mathlib.Tactic.FieldSimp
import Mathlib.Tactic.Ring
import Mathlib.Tactic.NormNum

/-!
# Priorities and mask files (astropysics/gui/spectarget.py 375-379, 492-497, 543-567, 645-690, 716-751) (C198, C199)

Real numbers instead of floats.  The objects are any finite nonempty type; numpy's operations on the arrays of all objects are elementwise, so they are modelled object by object.  The offsets are the distances
of C117 and are not negative.
-/

namespace Verif.SpecTarget

variable {ι : Type} [Fintype ι] [Nonempty ι]

/-- `a.max()`, `a.min()`. -/
noncomputable def amax (f : ι → ℝ) : ℝ := Finset.univ.sup' Finset.univ_nonempty f
noncomputable def amin (f : ι → ℝ) : ℝ := Finset.univ.inf' Finset.univ_nonempty f

/-- `pri = 1-off/off.max()`, spectarget.py 546. -/
noncomputable def base (off : ι → ℝ) (i : ι) : ℝ := 1 - off i / amax off

/-- The scaled band, spectarget.py 549-553. -/
noncomputable def scaled (w : ℝ) (data : ι → ℝ) (i : ι) : ℝ :=
  if w < 0 then (data i - amin data) / (amax data - amin data) else (amax data - data i) / (amax data - amin data)

/-- `(pri - pri.min())/(pri.max()-pri.min())`, spectarget.py 555. -/
noncomputable def rescale (p : ι → ℝ) (i : ι) : ℝ := (p i - amin p) / (amax p - amin p)

/-- Spectarget.py 546-555: `band` is the data of `priband` if one is chosen, `w` is `pribandw`. -/
noncomputable def weighted (off : ι → ℝ) (band : Option (ι → ℝ)) (w : ℝ) : ι → ℝ :=
  match band with
  | none => base off
  | some data => if w = 0 then base off else rescale fun i => base off i + w * scaled w data i

/-- `_get_priorities`, spectarget.py 543-567, with `_get_g0m`, 375-379: `groups` is `datagroups`, `hide` is `hideg0`. -/
noncomputable def priority (off : ι → ℝ) (band : Option (ι → ℝ)) (w power : ℝ) (groups : Option (ι → ℤ)) (hide : Bool) (i : ι) : ℝ :=
  match groups with
  | none => weighted off band w i ^ power
  | some g => if hide = true ∧ g i = 0 then 0 else weighted off band w i ^ power

/-! ## Proofs -/

theorem le_amax (f : ι → ℝ) (i : ι) : f i ≤ amax f := Finset.le_sup' f (Finset.mem_univ i)
theorem amin_le (f : ι → ℝ) (i : ι) : amin f ≤ f i := Finset.inf'_le f (Finset.mem_univ i)
theorem amax_mem (f : ι → ℝ) : ∃ i, amax f = f i := by
  obtain ⟨i, _, h⟩ := Finset.exists_mem_eq_sup' (Finset.univ_nonempty (α := ι)) f; exact ⟨i, h⟩
theorem amin_mem (f : ι → ℝ) : ∃ i, amin f = f i := by
  obtain ⟨i, _, h⟩ := Finset.exists_mem_eq_inf' (Finset.univ_nonempty (α := ι)) f; exact ⟨i, h⟩

theorem amax_pos (off : ι → ℝ) (h : ∃ i, 0 < off i) : 0 < amax off := by obtain ⟨i, hi⟩ := h; exact lt_of_lt_of_le hi (le_amax off i)

theorem base_range (off : ι → ℝ) (h0 : ∀ i, 0 ≤ off i) (h : ∃ i, 0 < off i) (i : ι) : 0 ≤ base off i ∧ base off i ≤ 1 := by
  have hm := amax_pos off h
  unfold base
  constructor
  · have : off i / amax off ≤ 1 := (div_le_one hm).2 (le_amax off i)
    linarith
  · have : 0 ≤ off i / amax off := div_nonneg (h0 i) hm.le
    linarith

theorem rescale_range (p : ι → ℝ) (i : ι) : 0 ≤ rescale p i ∧ rescale p i ≤ 1 := by
  unfold rescale
  have h1 := amin_le p i
  have h2 := le_amax p i
  constructor
  · exact div_nonneg (by linarith) (by linarith)
  · exact div_le_one_of_le₀ (by linarith) (by linarith)

theorem weighted_range (off : ι → ℝ) (h0 : ∀ i, 0 ≤ off i) (h : ∃ i, 0 < off i) (band : Option (ι → ℝ)) (w : ℝ) (i : ι) : 0 ≤ weighted off band w i ∧ weighted off band w i ≤ 1 := by
  unfold weighted
  cases band with
  | none => exact base_range off h0 h i
  | some d =>
    simp only
    split
    · exact base_range off h0 h i
    · exact rescale_range _ i

/-- C198.  All priorities are between zero and one. -/
theorem in_unit (off : ι → ℝ) (h0 : ∀ i, 0 ≤ off i) (h : ∃ i, 0 < off i) (band : Option (ι → ℝ)) (w power : ℝ) (hp : 0 ≤ power) (groups : Option (ι → ℤ)) (hide : Bool) (i : ι) :
    0 ≤ priority off band w power groups hide i ∧ priority off band w power groups hide i ≤ 1 := by
  obtain ⟨a, b⟩ := weighted_range off h0 h band w i
  have : 0 ≤ weighted off band w i ^ power ∧ weighted off band w i ^ power ≤ 1 := ⟨Real.rpow_nonneg a _, Real.rpow_le_one a b hp⟩
  unfold priority
  cases groups with
  | none => exact this
  | some g =>
    simp only
    split
    · exact ⟨le_refl _, zero_le_one⟩
    · exact this

/-- C198.  Without a band weight: an object on the fiducial has priority one, the farthest zero, and of two objects that are not hidden the nearer one has the higher priority. -/
theorem by_offset (off : ι → ℝ) (h0 : ∀ i, 0 ≤ off i) (h : ∃ i, 0 < off i) (band : Option (ι → ℝ)) (w power : ℝ) (hb : band = none ∨ w = 0) (hp : 0 < power) (groups : Option (ι → ℤ)) (hide : Bool)
    (shown : ∀ i, ∀ g, groups = some g → hide = true → g i ≠ 0) :
    (∀ i, priority off band w power groups hide i = 1 ↔ off i = 0) ∧ (∀ i, priority off band w power groups hide i = 0 ↔ ∀ j, off j ≤ off i) ∧
    (∀ i j, priority off band w power groups hide i < priority off band w power groups hide j ↔ off j < off i) := by
  have hm := amax_pos off h
  have hw : weighted off band w = base off := by
    unfold weighted
    rcases hb with rfl | rfl
    · rfl
    · cases band <;> simp
  have hpr : ∀ i, priority off band w power groups hide i = base off i ^ power := by
    intro i
    unfold priority
    rw [hw]
    cases groups with
    | none => rfl
    | some g =>
      simp only
      rw [if_neg]
      rintro ⟨h1, h2⟩
      exact shown i g rfl h1 h2
  have hr := base_range off h0 h
  refine ⟨?_, ?_, ?_⟩
  · intro i
    have h1 : base off i ^ power = 1 ↔ base off i = 1 := by
      have := Real.rpow_left_inj (hr i).1 zero_le_one hp.ne'
      rwa [Real.one_rpow] at this
    rw [hpr, h1]
    unfold base
    constructor
    · intro e
      have : off i / amax off = 0 := by linarith
      rcases div_eq_zero_iff.1 this with h | h
      · exact h
      · linarith
    · intro e; rw [e]; simp
  · intro i
    rw [hpr, Real.rpow_eq_zero (hr i).1 hp.ne']
    unfold base
    constructor
    · intro e j
      have : off i / amax off = 1 := by linarith
      rw [div_eq_one_iff_eq hm.ne'] at this
      rw [this]; exact le_amax off j
    · intro e
      obtain ⟨k, hk⟩ := amax_mem off
      have : off i = amax off := le_antisymm (le_amax off i) (by rw [hk]; exact e k)
      rw [← this, div_self (by rw [this]; exact hm.ne')]; ring
  · intro i j
    rw [hpr, hpr, Real.rpow_lt_rpow_iff (hr i).1 (hr j).1 hp]
    unfold base
    rw [← div_lt_div_iff_of_pos_right hm (a := off j)]
    constructor <;> intro h <;> linarith

/-- Shifting does not change a rescaled array. -/
theorem rescale_shift (p q : ι → ℝ) (c : ℝ) (h : ∀ i, q i = p i + c) : rescale q = rescale p := by
  have h1 : amax q = amax p + c := by
    apply le_antisymm
    · obtain ⟨i, hi⟩ := amax_mem q; rw [hi, h i]; linarith [le_amax p i]
    · obtain ⟨i, hi⟩ := amax_mem p; rw [hi, ← h i]; exact le_amax q i
  have h2 : amin q = amin p + c := by
    apply le_antisymm
    · obtain ⟨i, hi⟩ := amin_mem p; rw [hi, ← h i]; exact amin_le q i
    · obtain ⟨i, hi⟩ := amin_mem q; rw [hi, h i]; linarith [amin_le p i]
  funext i
  unfold rescale
  rw [h1, h2, h i]
  congr 1 <;> ring

/-- C198.  The sign of the band weight makes no difference (if the band is not constant). -/
theorem sign_irrelevant (off : ι → ℝ) (band : ι → ℝ) (hb : ∃ i j, band i ≠ band j) (w power : ℝ) (groups : Option (ι → ℤ)) (hide : Bool) :
    priority off (some band) (-w) power groups hide = priority off (some band) w power groups hide := by
  have hr : amax band - amin band ≠ 0 := by
    intro e
    obtain ⟨i, j, hij⟩ := hb
    apply hij
    have h1 := amin_le band i; have h2 := le_amax band i; have h3 := amin_le band j; have h4 := le_amax band j
    linarith
  have key : ∀ v : ℝ, 0 < v → weighted off (some band) (-v) = weighted off (some band) v := by
    intro v hv
    unfold weighted
    simp only [neg_eq_zero, hv.ne', if_false]
    symm
    apply rescale_shift _ _ v
    intro i
    unfold scaled
    rw [if_neg (by linarith), if_pos (by linarith)]
    field_simp
    ring
  have key2 : weighted off (some band) (-w) = weighted off (some band) w := by
    rcases lt_trichotomy w 0 with h | h | h
    · have := key (-w) (by linarith)
      rw [neg_neg] at this
      exact this.symm
    · subst h; simp
    · exact key w h
  funext i
  unfold priority
  rw [key2]

/-- C198.  With a band weight of either sign, of two objects at the same offset the brighter one has the higher priority; of two objects as bright as each other the nearer one has; some object has priority one
and some object zero, unless all come out alike. -/
theorem with_band (off : ι → ℝ) (h0 : ∀ i, 0 ≤ off i) (h : ∃ i, 0 < off i) (band : ι → ℝ) (hb : ∃ i j, band i ≠ band j) (w power : ℝ) (hw : w ≠ 0) (hp : 0 < power) :
    (∀ i j, off i = off j → (priority off (some band) w power none false i < priority off (some band) w power none false j ↔ band j < band i)) ∧
    (∀ i j, band i = band j → (priority off (some band) w power none false i < priority off (some band) w power none false j ↔ off j < off i)) ∧
    ((∃ i, priority off (some band) w power none false i = 0) ∧ ((∃ i, priority off (some band) w power none false i = 1) ↔
      ¬ ∀ i j, |w| * (band i - band j) / (amax band - amin band) = (off j - off i) / amax off)) := by
  -- a positive weight is enough
  have hpos : ∃ v, 0 < v ∧ |w| = v ∧ priority off (some band) w power none false = priority off (some band) v power none false := by
    rcases lt_or_gt_of_ne hw with h | h
    · refine ⟨-w, by linarith, abs_of_neg h, ?_⟩
      have := sign_irrelevant off band hb (-w) power none false
      rw [neg_neg] at this
      exact this
    · exact ⟨w, h, abs_of_pos h, rfl⟩
  obtain ⟨v, hv, hav, e⟩ := hpos
  rw [e, hav]
  have hm := amax_pos off h
  have hr : 0 < amax band - amin band := by
    obtain ⟨i, j, hij⟩ := hb
    have h1 := amin_le band i; have h2 := le_amax band i; have h3 := amin_le band j; have h4 := le_amax band j
    rcases lt_or_gt_of_ne hij with h | h <;> linarith
  set p : ι → ℝ := fun i => base off i + v * scaled v band i with hpdef
  have hpr : ∀ i, priority off (some band) v power none false i = rescale p i ^ power := by
    intro i; simp [priority, weighted, hv.ne', hpdef]
  have hdiff : ∀ i j, p j - p i = (off i - off j) / amax off + v * (band i - band j) / (amax band - amin band) := by
    intro i j
    simp only [hpdef, base, scaled, if_neg (not_lt.2 hv.le)]
    field_simp
    ring
  have hlt : ∀ i j, (∃ a b, p a ≠ p b) → (priority off (some band) v power none false i < priority off (some band) v power none false j ↔ p i < p j) := by
    intro i j hab
    rw [hpr, hpr, Real.rpow_lt_rpow_iff (rescale_range p i).1 (rescale_range p j).1 hp]
    have : 0 < amax p - amin p := by
      obtain ⟨a, b, hne⟩ := hab
      have h1 := amin_le p a; have h2 := le_amax p a; have h3 := amin_le p b; have h4 := le_amax p b
      rcases lt_or_gt_of_ne hne with h | h <;> linarith
    unfold rescale
    rw [div_lt_div_iff_of_pos_right this]
    constructor <;> intro h <;> linarith
  have hconst : (∀ a b, p a = p b) → ∀ i j, ¬ priority off (some band) v power none false i < priority off (some band) v power none false j := by
    intro hc i j
    rw [hpr, hpr]
    unfold rescale
    rw [hc i j]
    exact lt_irrefl _
  have hlt2 : ∀ i j, (priority off (some band) v power none false i < priority off (some band) v power none false j ↔ p i < p j) := by
    intro i j
    by_cases hc : ∃ a b, p a ≠ p b
    · exact hlt i j hc
    · push Not at hc
      have := hconst hc i j
      simp only [this, false_iff, not_lt]
      rw [hc i j]
  refine ⟨?_, ?_, ?_, ?_⟩
  · intro i j hij
    rw [hlt2, ← sub_pos, hdiff, hij, sub_self, zero_div, zero_add, div_pos_iff_of_pos_right hr, mul_pos_iff_of_pos_left hv, sub_pos]
  · intro i j hij
    rw [hlt2, ← sub_pos, hdiff, hij, sub_self, mul_zero, zero_div, add_zero, div_pos_iff_of_pos_right hm, sub_pos]
  · obtain ⟨i, hi⟩ := amin_mem p
    refine ⟨i, ?_⟩
    rw [hpr]
    unfold rescale
    rw [hi, sub_self, zero_div, Real.zero_rpow hp.ne']
  · constructor
    · rintro ⟨i, hi⟩ hall
      have hc : ∀ a b, p a = p b := by
        intro a b
        have := hdiff b a
        have h2 := hall b a
        rw [h2] at this
        have e3 : (off b - off a) / amax off + (off a - off b) / amax off = 0 := by field_simp; ring
        linarith
      rw [hpr] at hi
      have : rescale p i = 0 := by
        obtain ⟨k, hk⟩ := amin_mem p
        unfold rescale
        rw [hk, hc i k, sub_self, zero_div]
      rw [this, Real.zero_rpow hp.ne'] at hi
      exact zero_ne_one hi
    · intro hne
      obtain ⟨i, hi⟩ := amax_mem p
      refine ⟨i, ?_⟩
      rw [hpr]
      have : amax p - amin p ≠ 0 := by
        intro e0
        apply hne
        intro a b
        have h1 := amin_le p a; have h2 := le_amax p a; have h3 := amin_le p b; have h4 := le_amax p b
        have hd := hdiff a b
        have : p b - p a = 0 := by linarith
        rw [this] at hd
        have e3 : (off a - off b) / amax off = -((off b - off a) / amax off) := by field_simp; ring
        rw [e3] at hd
        linarith
      unfold rescale
      rw [← hi, div_self this, Real.one_rpow]

/-- C198.  Hidden objects have priority zero. -/
theorem hidden (off : ι → ℝ) (band : Option (ι → ℝ)) (w power : ℝ) (g : ι → ℤ) (i : ι) (hg : g i = 0) : priority off band w power (some g) true i = 0 := by simp [priority, hg]

/-- A case. -/
theorem example_priority : priority (fun i : Fin 3 => (i.val : ℝ)) none 0 2 none true 1 = 1 / 4 ∧ (∃ i : Fin 3, (0 : ℝ) < (i.val : ℝ)) := by
  have hm : amax (fun i : Fin 3 => (i.val : ℝ)) = 2 := by
    apply le_antisymm
    · apply Finset.sup'_le
      intro i _
      have : i.val ≤ 2 := by omega
      exact_mod_cast this
    · have := le_amax (fun i : Fin 3 => (i.val : ℝ)) 2
      simpa using this
  refine ⟨?_, 1, by norm_num⟩
  simp only [priority, weighted, base, hm]
  norm_num

/-! ## The mask file (C199) -/

/-- What the user chose: `gstarcut`, `astarcut`, `agigpri`, `groupcutoff`, `agigg1`. -/
structure Choice where
  gcut : ℝ
  acut : ℝ
  ignore : ℝ
  cutoff : ℝ
  keep1 : Bool

/-- One object: its priority, its magnitude in `agband`, and the one in the band of the file. -/
structure Obj where
  pri : ℝ
  star : ℝ
  mag : ℝ

/-- `_guidealignmasks`, spectarget.py 492-497. -/
noncomputable def guide (c : Choice) (o : Obj) : Bool := o.star < c.gcut ∧ o.pri < c.ignore
noncomputable def align (c : Choice) (o : Obj) : Bool := o.star < c.acut ∧ o.pri < c.ignore ∧ ¬ guide c o

/-- `int(x)`. -/
noncomputable def trunc (x : ℝ) : ℤ := if 0 ≤ x then ⌊x⌋ else ⌈x⌉

/-- The priority and the group columns of an object, spectarget.py 648-690; `none` if it is not written.  The steps are the assignments in their order. -/
noncomputable def row (c : Choice) (o : Obj) : Option ℤ → Option (ℤ × ℤ)
  | none =>
    let pri := 1000 * o.pri
    let samp : ℤ := if c.cutoff < o.mag then 2 else 1
    let pri := if guide c o then -1 else pri
    let pri := if align c o then -2 else pri
    if samp ≠ -9 ∨ pri = -1 ∨ pri = -2 then some (trunc pri, samp) else none
  | some g =>
    let pri := 1000 * o.pri
    let keepbright := c.keep1 ∧ g = 1
    let pri := if g = -1 ∧ ¬ align c o then -1 else pri
    let pri := if g = -2 ∧ ¬ guide c o then -2 else pri
    let pri := if guide c o ∧ ¬ keepbright then -1 else pri
    let pri := if align c o ∧ ¬ keepbright then -2 else pri
    let samp := if g = -1 ∨ pri = -1 then 6 else g
    let samp := if samp = -2 ∨ pri = -2 then 6 else samp
    let samp := if c.cutoff < o.mag ∧ 0 < samp then 5 else samp
    if samp ≠ -9 ∨ pri = -1 ∨ pri = -2 then some (trunc pri, samp) else none

/-- What an object is used for. -/
inductive Role
  | guide
  | align
  | target
  deriving DecidableEq

/-- The role: bright objects of a low priority are stars, guide stars before alignment stars, except those of group 1 if these are kept; the groups -1 and -2 are guide and alignment stars unless they are bright
enough for the other use. -/
def HasRole (c : Choice) (o : Obj) (g : Option ℤ) : Role → Prop
  | .guide => (o.star < c.gcut ∧ o.pri < c.ignore ∧ ¬ (c.keep1 = true ∧ g = some 1)) ∨ (g = some (-1) ∧ ¬ (o.star < c.acut ∧ o.pri < c.ignore))
  | .align => (o.star < c.acut ∧ ¬ o.star < c.gcut ∧ o.pri < c.ignore ∧ ¬ (c.keep1 = true ∧ g = some 1)) ∨ (g = some (-2) ∧ ¬ (o.star < c.gcut ∧ o.pri < c.ignore))
  | .target => ¬ ((o.star < c.gcut ∨ o.star < c.acut) ∧ o.pri < c.ignore ∧ ¬ (c.keep1 = true ∧ g = some 1)) ∧ g ≠ some (-1) ∧ g ≠ some (-2)

/-- The priority column. -/
noncomputable def priColumn (o : Obj) : Role → ℤ
  | .guide => -1
  | .align => -2
  | .target => ⌊1000 * o.pri⌋

/-- The group column. -/
noncomputable def grpColumn (c : Choice) (o : Obj) : Option ℤ → Role → ℤ
  | none, _ => if c.cutoff < o.mag then 2 else 1
  | some g, .target => if c.cutoff < o.mag ∧ 0 < g then 5 else g
  | some _, _ => if c.cutoff < o.mag then 5 else 6

theorem trunc_neg1 : trunc (-1) = -1 := by unfold trunc; rw [if_neg (by norm_num)]; exact_mod_cast Int.ceil_intCast (R := ℝ) (-1)
theorem trunc_neg2 : trunc (-2) = -2 := by unfold trunc; rw [if_neg (by norm_num)]; exact_mod_cast Int.ceil_intCast (R := ℝ) (-2)

/-- C199.  Every object has exactly one role. -/
theorem one_role (c : Choice) (o : Obj) (g : Option ℤ) : ∃! r, HasRole c o g r := by
  have e1 : g = some (-1) → g ≠ some (-2) := by rintro rfl; simp
  have e2 : g = some (-1) → g ≠ some 1 := by rintro rfl; simp
  have e3 : g = some (-2) → g ≠ some 1 := by rintro rfl; simp
  have hall : ∀ (A B C K G1 G2 : Prop), (G1 → ¬ G2) → (G1 → ¬ K) → (G2 → ¬ K) →
      ((A ∧ C ∧ ¬ K ∨ G1 ∧ ¬ (B ∧ C)) ∨ (B ∧ ¬ A ∧ C ∧ ¬ K ∨ G2 ∧ ¬ (A ∧ C)) ∨ (¬ ((A ∨ B) ∧ C ∧ ¬ K) ∧ ¬ G1 ∧ ¬ G2)) ∧
      ¬ ((A ∧ C ∧ ¬ K ∨ G1 ∧ ¬ (B ∧ C)) ∧ (B ∧ ¬ A ∧ C ∧ ¬ K ∨ G2 ∧ ¬ (A ∧ C))) ∧
      ¬ ((A ∧ C ∧ ¬ K ∨ G1 ∧ ¬ (B ∧ C)) ∧ (¬ ((A ∨ B) ∧ C ∧ ¬ K) ∧ ¬ G1 ∧ ¬ G2)) ∧
      ¬ ((B ∧ ¬ A ∧ C ∧ ¬ K ∨ G2 ∧ ¬ (A ∧ C)) ∧ (¬ ((A ∨ B) ∧ C ∧ ¬ K) ∧ ¬ G1 ∧ ¬ G2)) := by
    intro A B C K G1 G2 q1 q2 q3
    by_cases hA : A <;> by_cases hB : B <;> by_cases hC : C <;> by_cases hK : K <;> by_cases hG1 : G1 <;> by_cases hG2 : G2 <;> simp_all
  obtain ⟨k1, k2, k3, k4⟩ := hall (o.star < c.gcut) (o.star < c.acut) (o.pri < c.ignore) (c.keep1 = true ∧ g = some 1) (g = some (-1)) (g = some (-2)) e1 (fun h hk => e2 h hk.2) (fun h hk => e3 h hk.2)
  apply existsUnique_of_exists_of_unique
  · rcases k1 with h | h | h
    · exact ⟨.guide, h⟩
    · exact ⟨.align, h⟩
    · exact ⟨.target, h⟩
  · intro r r' h h'
    cases r <;> cases r'
    · rfl
    · exact absurd ⟨h, h'⟩ k2
    · exact absurd ⟨h, h'⟩ k3
    · exact absurd ⟨h', h⟩ k2
    · rfl
    · exact absurd ⟨h, h'⟩ k4
    · exact absurd ⟨h', h⟩ k3
    · exact absurd ⟨h', h⟩ k4
    · rfl

/-- C199.  The columns of an object in the mask file, and which objects are left out. -/
theorem row_exact (c : Choice) (o : Obj) (h0 : 0 ≤ o.pri) (g : Option ℤ) (r : Role) (h : HasRole c o g r) :
    row c o g = if g = some (-9) ∧ r = .target then none else some (priColumn o r, grpColumn c o g r) := by
  have hp1 : ¬ 1000 * o.pri = -1 := by intro e; linarith
  have hp2 : ¬ 1000 * o.pri = -2 := by intro e; linarith
  have ht : trunc (1000 * o.pri) = ⌊1000 * o.pri⌋ := by unfold trunc; rw [if_pos (by linarith)]
  have hg : guide c o = true ↔ o.star < c.gcut ∧ o.pri < c.ignore := by simp [guide]
  have ha : align c o = true ↔ o.star < c.acut ∧ ¬ o.star < c.gcut ∧ o.pri < c.ignore := by
    simp only [align, hg, decide_eq_true_eq]; tauto
  have n12 : ¬ (-1 : ℝ) = -2 := by norm_num
  have n21 : ¬ (-2 : ℝ) = -1 := by norm_num
  cases g with
  | none =>
    have hs : ∀ b : Prop, [Decidable b] → ¬ (if b then (2 : ℤ) else 1) = -9 := by intro b _; split <;> simp
    cases r with
    | guide =>
      have hmg : guide c o = true := by rw [hg]; simp [HasRole] at h; exact h
      have hma : align c o = false := by rw [← Bool.not_eq_true, ha]; rw [hg] at hmg; tauto
      simp [row, hmg, hma, hs, priColumn, grpColumn, trunc_neg1]
    | align =>
      have hma : align c o = true := by rw [ha]; simp [HasRole] at h; simpa using h
      simp [row, hma, hs, priColumn, grpColumn, trunc_neg2]
    | target =>
      have hmg : guide c o = false := by rw [← Bool.not_eq_true, hg]; simp only [HasRole] at h; simp at h; intro h'; exact absurd h'.2 (not_lt.2 (h (.inl h'.1)))
      have hma : align c o = false := by rw [← Bool.not_eq_true, ha]; simp only [HasRole] at h; simp at h; intro h'; exact absurd h'.2.2 (not_lt.2 (h (.inr h'.1)))
      simp [row, hmg, hma, hs, priColumn, grpColumn, ht]
  | some g =>
    cases r with
    | guide =>
      have hma : align c o = true → False := by
        rw [ha]; rcases h with h | h <;> tauto
      have hma : align c o = false := by rw [← Bool.not_eq_true]; exact hma
      rcases h with ⟨h1, h2, h3⟩ | ⟨h1, h2⟩
      · have hmg : guide c o = true := hg.2 ⟨h1, h2⟩
        have h3' : ¬ (c.keep1 = true ∧ g = 1) := by simpa using h3
        by_cases hm : c.cutoff < o.mag
        · simp [row, hmg, hma, h3', priColumn, grpColumn, trunc_neg1, hm, n12]
        · simp [row, hmg, hma, h3', priColumn, grpColumn, trunc_neg1, hm, n12]
      · have hgg : g = -1 := by simpa using h1
        subst hgg
        by_cases hm : c.cutoff < o.mag
        · simp [row, hma, priColumn, grpColumn, trunc_neg1, hm, n12]
        · simp [row, hma, priColumn, grpColumn, trunc_neg1, hm, n12]
    | align =>
      rcases h with ⟨h1, h2, h3, h4⟩ | ⟨h1, h2⟩
      · have hma : align c o = true := ha.2 ⟨h1, h2, h3⟩
        have hmg : guide c o = false := by rw [← Bool.not_eq_true, hg]; tauto
        have h4' : ¬ (c.keep1 = true ∧ g = 1) := by simpa using h4
        by_cases hm : c.cutoff < o.mag
        · simp [row, hmg, hma, h4', priColumn, grpColumn, trunc_neg2, hm]
        · simp [row, hmg, hma, h4', priColumn, grpColumn, trunc_neg2, hm]
      · have hgg : g = -2 := by simpa using h1
        subst hgg
        have hmg : guide c o = false := by rw [← Bool.not_eq_true, hg]; exact h2
        by_cases hm : c.cutoff < o.mag
        · simp [row, hmg, priColumn, grpColumn, trunc_neg2, hm, n21]
        · simp [row, hmg, priColumn, grpColumn, trunc_neg2, hm, n21]
    | target =>
      obtain ⟨h1, h2, h3⟩ := h
      have g1 : ¬ g = -1 := by simpa using h2
      have g2 : ¬ g = -2 := by simpa using h3
      have hk : (c.keep1 = true ∧ g = 1) ↔ (c.keep1 = true ∧ some g = some 1) := by simp
      have hmg : ¬ (guide c o = true ∧ ¬ (c.keep1 = true ∧ g = 1)) := by rw [hg, hk]; tauto
      have hma : ¬ (align c o = true ∧ ¬ (c.keep1 = true ∧ g = 1)) := by rw [ha, hk]; tauto
      simp only [row, g1, g2, hmg, hma, if_false, false_and, hp1, hp2, or_false, or_self, ht, priColumn, grpColumn]
      by_cases h9 : g = -9
      · subst h9; simp
      · have hne : (if c.cutoff < o.mag ∧ 0 < g then (5 : ℤ) else g) ≠ -9 := by
          split
          · simp
          · exact h9
        have h9' : ¬ (some g = some (-9) ∧ True) := by simp [h9]
        rw [if_neg h9', if_pos hne]

/-- C199.  The priority column of an object that is not used as a star is between 0 and 1000, so it is a star exactly if the column is negative. -/
theorem star_iff (c : Choice) (o : Obj) (h0 : 0 ≤ o.pri) (h1 : o.pri ≤ 1) (g : Option ℤ) (p s : ℤ) (h : row c o g = some (p, s)) :
    (p = -1 ↔ HasRole c o g .guide) ∧ (p = -2 ↔ HasRole c o g .align) ∧ (0 ≤ p ↔ HasRole c o g .target) ∧ p ≤ 1000 := by
  obtain ⟨r, hr, hu⟩ := one_role c o g
  have hu' : ∀ r', HasRole c o g r' ↔ r' = r := fun r' => ⟨fun h => hu r' h, fun h => h ▸ hr⟩
  rw [hu', hu', hu']
  rw [row_exact c o h0 g r hr] at h
  split at h
  · cases h
  · rw [Option.some.injEq, Prod.mk.injEq] at h
    obtain ⟨h, _⟩ := h
    have a1 : 0 ≤ ⌊1000 * o.pri⌋ := Int.floor_nonneg.2 (by linarith)
    have a2 : ⌊1000 * o.pri⌋ ≤ 1000 := by
      have : ⌊1000 * o.pri⌋ ≤ ⌊(1000 : ℝ)⌋ := Int.floor_le_floor (by linarith)
      rwa [show ⌊(1000 : ℝ)⌋ = 1000 from by exact_mod_cast Int.floor_intCast (R := ℝ) 1000] at this
    cases r <;> simp only [priColumn] at h <;> simp <;> omega

/-! ## The second file -/

/-- The priority of an object in the second file, spectarget.py 742-745. -/
noncomputable def second (acut2 mag : ℝ) (presel pri : ℤ) : ℤ := if presel ≠ 0 then pri else if mag < acut2 then -2 else pri

/-- C199.  In the second file every object brighter than the second cutoff that is not preselected is an alignment star, also if it was a guide star or a target; the others keep their priority. -/
theorem second_exact (acut2 mag : ℝ) (presel pri : ℤ) : (presel = 0 ∧ mag < acut2 → second acut2 mag presel pri = -2) ∧ (¬ (presel = 0 ∧ mag < acut2) → second acut2 mag presel pri = pri) := by
  unfold second
  constructor
  · rintro ⟨h1, h2⟩; simp [h1, h2]
  · intro h
    split
    · rfl
    · split
      · rename_i h1 h2; exact absurd ⟨by simpa using h1, h2⟩ h
      · rfl

/-- With cutoffs in their order, no guide star the program chose is left in the second file. -/
theorem no_guides_left (c : Choice) (o : Obj) (h0 : 0 ≤ o.pri) (g : Option ℤ) (hg : g ≠ some (-1)) (acut2 : ℝ) (hc : c.gcut ≤ acut2) (hm : o.star = o.mag) (s : ℤ) (h : row c o g = some (-1, s)) :
    second acut2 o.mag 0 (-1) = -2 := by
  obtain ⟨r, hr, _⟩ := one_role c o g
  rw [row_exact c o h0 g r hr] at h
  split at h
  · cases h
  · rw [Option.some.injEq, Prod.mk.injEq] at h
    have a1 : 0 ≤ ⌊1000 * o.pri⌋ := Int.floor_nonneg.2 (by linarith)
    cases r with
    | guide =>
      rcases hr with ⟨h1, _⟩ | ⟨h1, _⟩
      · exact (second_exact _ _ _ _).1 ⟨rfl, by rw [← hm]; linarith⟩
      · exact absurd h1 hg
    | align => simp [priColumn] at h
    | target => simp only [priColumn] at h; omega

/-- The defaults. -/
noncomputable def defaults : Choice := ⟨16, 37 / 2, 1 / 2, 100, false⟩

/-- Cases: a guide star, a target, and one that is left out. -/
theorem example_rows : HasRole defaults ⟨1 / 10, 15, 15⟩ none .guide ∧ row defaults ⟨1 / 10, 15, 15⟩ none = some (-1, 1) ∧
    row defaults ⟨3 / 4, 15, 15⟩ (some 2) = some (750, 2) ∧ row defaults ⟨3 / 4, 15, 15⟩ (some (-9)) = none := by
  have h1 : HasRole defaults ⟨1 / 10, 15, 15⟩ none .guide := by left; simp [defaults]; norm_num
  have h2 : ∀ g : ℤ, g ≠ -1 → g ≠ -2 → HasRole defaults ⟨3 / 4, 15, 15⟩ (some g) .target := by
    intro g h1 h2; refine ⟨?_, by simpa using h1, by simpa using h2⟩; simp [defaults]; norm_num
  refine ⟨h1, ?_, ?_, ?_⟩
  · rw [row_exact _ _ (by norm_num) _ _ h1]; simp [priColumn, grpColumn, defaults]; norm_num
  · rw [row_exact _ _ (by norm_num) _ _ (h2 2 (by norm_num) (by norm_num))]
    simp only [priColumn, grpColumn, defaults]
    norm_num
  · rw [row_exact _ _ (by norm_num) _ _ (h2 (-9) (by norm_num) (by norm_num))]; simp

end Verif.SpecTarget

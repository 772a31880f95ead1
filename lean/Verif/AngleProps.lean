import Verif.Angle
import Mathlib.Tactic.Linarith
import Mathlib.Tactic.Positivity
import Mathlib.Tactic.FieldSimp
import Mathlib.Tactic.Ring
import Mathlib.Analysis.Real.Pi.Bounds

/-!
# Ranges of angles (C24)
-/

namespace Verif.Angle

noncomputable section

open Real

/-! ## Specification -/

/-- The value lies inside the range, if there is one. -/
def InRange (a : AC) : Prop := ∀ r, a.range = some r → r.low ≤ a.val ∧ a.val ≤ r.up

/-- The assignments C24 is proved for: no negative degrees in a d,m,s triple while a range is set that is not symmetric about zero,
and no zero-width wrapping range. -/
def Op.Safe (a : AC) : Op → Prop
  | .dms d _ _ => 0 ≤ d ∨ (∀ r, a.range = some r → r.low = -r.up)
  | .range (.triple lo up c) => c ≠ none → lo ≠ up
  | _ => True

def SafeRun (a : AC) : List Op → Prop
  | [] => True
  | op :: ops => op.Safe a ∧ SafeRun (step a op).1 ops

/-! ## Modulo -/

theorem pymod_nonneg {x y : ℝ} (hy : 0 < y) : 0 ≤ pymod x y := by
  unfold pymod
  have h := Int.floor_le (x / y)
  have : y * (⌊x / y⌋ : ℝ) ≤ y * (x / y) := mul_le_mul_of_nonneg_left h hy.le
  rw [mul_div_cancel₀ _ hy.ne'] at this
  linarith

theorem pymod_lt {x y : ℝ} (hy : 0 < y) : pymod x y < y := by
  unfold pymod
  have h := Int.lt_floor_add_one (x / y)
  have : y * (x / y) < y * ((⌊x / y⌋ : ℝ) + 1) := mul_lt_mul_of_pos_left h hy
  rw [mul_div_cancel₀ _ hy.ne'] at this
  linarith

theorem pymod_of_mem {x y : ℝ} (h0 : 0 ≤ x) (h1 : x < y) : pymod x y = x := by
  have hy : 0 < y := lt_of_le_of_lt h0 h1
  have : ⌊x / y⌋ = 0 := by
    rw [Int.floor_eq_iff]
    constructor
    · simpa using div_nonneg h0 hy.le
    · simpa using (div_lt_one hy).2 h1
  simp [pymod, this]

/-! ## The triangle wave -/

theorem triangle_mem {low up c x : ℝ} (h : low ≤ up) : low ≤ triangle low up c x ∧ triangle low up c x ≤ up := by
  have hp := Real.pi_pos
  have h1 := neg_pi_div_two_le_arcsin (sin (π * (2 * x / c + (low / (low - up) - 1/2))))
  have h2 := arcsin_le_pi_div_two (sin (π * (2 * x / c + (low / (low - up) - 1/2))))
  have e1 : -(1/2) ≤ arcsin (sin (π * (2 * x / c + (low / (low - up) - 1/2)))) / π := by
    rw [le_div_iff₀ hp]; linarith
  have e2 : arcsin (sin (π * (2 * x / c + (low / (low - up) - 1/2)))) / π ≤ 1/2 := by
    rw [div_le_iff₀ hp]; linarith
  unfold triangle
  constructor
  · nlinarith
  · nlinarith

theorem triangle_arg {low up x : ℝ} (h : low < up) :
    π * (2 * x / (2 * (up - low)) + (low / (low - up) - 1/2)) = π * ((x - low) / (up - low)) - π / 2 := by
  have h1 : up - low ≠ 0 := by linarith
  have h2 : low - up ≠ 0 := by linarith
  field_simp
  ring

/-- With the natural period (twice the width) the triangle wave leaves values inside the range alone. -/
theorem triangle_id {low up x : ℝ} (h : low < up) (hx : low ≤ x ∧ x ≤ up) : triangle low up (2 * (up - low)) x = x := by
  have hw : 0 < up - low := by linarith
  have hp := Real.pi_pos
  unfold triangle
  rw [triangle_arg h]
  have q0 : 0 ≤ (x - low) / (up - low) := div_nonneg (by linarith) hw.le
  have q1 : (x - low) / (up - low) ≤ 1 := by rw [div_le_one hw]; linarith
  rw [arcsin_sin (by nlinarith) (by nlinarith)]
  field_simp
  ring

/-- With the natural period the triangle wave is the reflection of the line in the two edges: the result is the value shifted by
whole periods, or its mirror image in the upper edge shifted by whole periods. -/
theorem triangle_fold {low up x : ℝ} (h : low < up) :
    ∃ n : ℤ, triangle low up (2 * (up - low)) x = x + n * (2 * (up - low)) ∨
      triangle low up (2 * (up - low)) x = (2 * up - x) + n * (2 * (up - low)) := by
  have hw : 0 < up - low := by linarith
  -- reduce to one period
  have per : ∀ (y : ℝ) (n : ℤ), triangle low up (2 * (up - low)) (y + n * (2 * (up - low))) = triangle low up (2 * (up - low)) y := by
    intro y n
    unfold triangle
    rw [triangle_arg h, triangle_arg h]
    have : π * ((y + n * (2 * (up - low)) - low) / (up - low)) - π / 2 =
        (π * ((y - low) / (up - low)) - π / 2) + n * (2 * π) := by field_simp; ring
    rw [this, sin_add_int_mul_two_pi]
  have refl : ∀ y : ℝ, triangle low up (2 * (up - low)) (2 * up - y) = triangle low up (2 * (up - low)) y := by
    intro y
    unfold triangle
    rw [triangle_arg h, triangle_arg h]
    have : π * ((2 * up - y - low) / (up - low)) - π / 2 = π - (π * ((y - low) / (up - low)) - π / 2) := by
      field_simp; ring
    rw [this, sin_pi_sub]
  set P := 2 * (up - low) with hP
  have hPpos : 0 < P := by linarith
  set n := ⌊(x - low) / P⌋ with hn
  have b0 : 0 ≤ (x - low) - P * n := by
    have := pymod_nonneg (x := x - low) hPpos
    simpa [pymod] using this
  have b1 : (x - low) - P * n < P := by
    have := pymod_lt (x := x - low) hPpos
    simpa [pymod] using this
  have hred : triangle low up P x = triangle low up P (x - n * P) := by
    have := per (x - n * P) n
    rw [← this]; congr 1; ring
  by_cases hc : x - n * P ≤ up
  · refine ⟨-n, Or.inl ?_⟩
    rw [hred, hP, triangle_id h ⟨by linarith, hc⟩]
    push_cast; ring
  · refine ⟨n, Or.inr ?_⟩
    rw [hred, ← refl, hP, triangle_id h ⟨by linarith, by linarith⟩]
    ring

/-! ## `_checkRange` -/

/-- A range that can be in force: the edges are in order and a wrapping range has positive width. -/
def Range.Good (r : Range) : Prop := r.low ≤ r.up ∧ (r.cycle ≠ none → r.low < r.up)

theorem checkRange_mem {r : Range} (hr : r.low ≤ r.up) {x v : ℝ} (h : checkRange (some r) x = .ok v) : r.low ≤ v ∧ v ≤ r.up := by
  unfold checkRange at h
  split at h
  · rename_i hn; cases hn
  · rename_i r' heq
    cases heq
    split at h
    · split at h
      · cases h; assumption
      · cases h
    · split at h
      · split at h
        · cases h
        · cases h; exact triangle_mem hr
      · split at h
        · cases h
        · rename_i hne
          cases h
          have hw : 0 < r.up - r.low := lt_of_le_of_ne (by linarith) (Ne.symm hne)
          have := pymod_nonneg (x := x - r.low) hw
          have := pymod_lt (x := x - r.low) hw
          constructor <;> linarith

theorem checkRange_error {r : Range} (hr : r.Good) {x : ℝ} {e : Err} (h : checkRange (some r) x = .error e) :
    e = .value ∧ r.cycle = none ∧ ¬ (r.low ≤ x ∧ x ≤ r.up) := by
  unfold checkRange at h
  split at h
  · cases h
  · rename_i r' heq
    cases heq
    split at h
    · rename_i hc
      split at h
      · cases h
      · cases h; exact ⟨rfl, hc, by assumption⟩
    · rename_i c hc
      have hlt := hr.2 (by rw [hc]; simp)
      split at h
      · split at h
        · rename_i hz; linarith
        · cases h
      · split at h
        · rename_i hz; linarith
        · cases h

/-! ## C24 -/

/-- Invariant: the range in force is sane and the value is inside. -/
def Inv (a : AC) : Prop := (∀ r, a.range = some r → r.Good) ∧ InRange a

theorem inv_fresh (v : ℝ) : Inv ⟨v, none⟩ := ⟨by simp, by simp [InRange]⟩

theorem setRadians_inv {a : AC} (h : Inv a) (x : ℝ) : Inv (setRadians a x).1 := by
  unfold setRadians
  split
  · rename_i v hv
    refine ⟨h.1, fun r hr => ?_⟩
    simp only at hr
    rw [hr] at hv
    exact checkRange_mem (h.1 r hr).1 hv
  · exact h

theorem setRadians_range (a : AC) (x : ℝ) : (setRadians a x).1.range = a.range := by
  unfold setRadians; split <;> rfl

theorem rad_lt {a b : ℝ} : rad a < rad b ↔ a < b := by
  unfold rad
  have := Real.pi_pos
  constructor
  · intro h
    by_contra hc
    push Not at hc
    have := mul_le_mul_of_nonneg_right hc Real.pi_pos.le
    linarith
  · intro h
    have := mul_lt_mul_of_pos_right h Real.pi_pos
    linarith

theorem rad_le {a b : ℝ} : rad a ≤ rad b ↔ a ≤ b := by
  rw [← not_lt, ← not_lt, rad_lt]

theorem installRange_inv {a : AC} (h : Inv a) {r : Option Range} (hr : ∀ x, r = some x → x.Good) : Inv (installRange a r).1 := by
  unfold installRange
  split
  · rename_i v hv
    refine ⟨hr, fun x hx => ?_⟩
    simp only at hx
    subst hx
    exact checkRange_mem (hr x rfl).1 hv
  · exact h
  · rename_i e hne he
    cases r with
    | none => simp [checkRange] at he
    | some x => exact absurd (checkRange_error (hr x rfl) he).1 hne

theorem good_of_args {lo up : ℝ} {c : Option ℝ} (h1 : ¬ lo > up) (h2 : c ≠ none → lo ≠ up) :
    (⟨rad lo, rad up, c.map rad⟩ : Range).Good := by
  refine ⟨rad_le.2 (not_lt.1 h1), fun hc => ?_⟩
  have : c ≠ none := by intro h; apply hc; simp [h]
  exact rad_lt.2 (lt_of_le_of_ne (not_lt.1 h1) (h2 this))

theorem setRange_inv {a : AC} (h : Inv a) {x : RangeArg} (hs : (Op.range x).Safe a) : Inv (setRange a x).1 := by
  unfold setRange
  cases x with
  | none => exact installRange_inv h (by simp)
  | bad => exact h
  | pair lo up =>
    simp only [RangeArg.toTriple]
    split
    · exact h
    · rename_i hlt
      apply installRange_inv h
      intro y hy
      cases hy
      apply good_of_args hlt
      intro hc heq
      subst heq
      simp at hc
  | triple lo up c =>
    simp only [RangeArg.toTriple]
    split
    · exact h
    · rename_i hlt
      apply installRange_inv h
      intro y hy
      cases hy
      exact good_of_args hlt hs

theorem step_inv {a : AC} (h : Inv a) {op : Op} (hs : op.Safe a) : Inv (step a op).1 := by
  cases op with
  | radians x => exact setRadians_inv h _
  | degrees x => exact setRadians_inv h _
  | hours x => exact setRadians_inv h _
  | hms x y z => exact setRadians_inv h _
  | range x => exact setRange_inv h hs
  | dms d m s =>
    show Inv (setDms a d m s).1
    have h' := setRadians_inv h ((|d| + |m| / 60 + |s| / 3600) * π / 180)
    have hr := setRadians_range a ((|d| + |m| / 60 + |s| / 3600) * π / 180)
    unfold setDms setDegrees
    split
    · rename_i a' heq
      rw [heq] at h' hr
      simp only at h' hr ⊢
      split
      · rename_i hd
        refine ⟨h'.1, fun r hrr => ?_⟩
        simp only at hrr ⊢
        rcases hs with hs | hs
        · linarith
        · have := h'.2 r hrr
          have e := hs r (by rw [← hr]; exact hrr)
          constructor <;> linarith [this.1, this.2]
      · exact h'
    · rename_i a' e heq
      rw [heq] at h'
      exact h'

theorem run_inv {a : AC} (h : Inv a) : ∀ ops, SafeRun a ops → Inv (run a ops) := by
  intro ops
  induction ops generalizing a with
  | nil => intro _; exact h
  | cons op ops ih => intro hs; exact ih (step_inv h hs.1) hs.2

/-- C24, first claim, for histories without the two operations that break it: whatever values and ranges are assigned, and whether or not
an assignment is rejected, the value is inside the range in force. -/
theorem value_in_range (v : ℝ) (ops : List Op) (h : SafeRun ⟨v, none⟩ ops) : InRange (run ⟨v, none⟩ ops) :=
  (run_inv (inv_fresh v) ops h).2

/-- The range in force after such a history has its edges in order and positive width if it wraps, so the theorems below apply to it. -/
theorem range_good (v : ℝ) (ops : List Op) (h : SafeRun ⟨v, none⟩ ops) {r : Range} (hr : (run ⟨v, none⟩ ops).range = some r) :
    r.Good :=
  (run_inv (inv_fresh v) ops h).1 r hr

/-- C24: an assignment rejected with ValueError or TypeError changes neither the value nor the range. -/
theorem rejected_unchanged (a : AC) (op : Op) {e : Err} (h : (step a op).2 = some e) (he : e ≠ .zeroDiv) : (step a op).1 = a := by
  have hrad : ∀ x, (setRadians a x).2 = some e → (setRadians a x).1 = a := by
    intro x hx
    unfold setRadians at hx ⊢
    split at hx
    · cases hx
    · rfl
  have hinst : ∀ r, (installRange a r).2 = some e → (installRange a r).1 = a := by
    intro r hx
    unfold installRange at hx ⊢
    split at hx
    · cases hx
    · rfl
    · cases hx
      rename_i h' h''
      exfalso
      cases r with
      | none => simp [checkRange] at h''
      | some r =>
        cases e with
        | value => exact h' rfl
        | zeroDiv => exact he rfl
        | type =>
          unfold checkRange at h''
          simp only at h''
          split at h''
          · split at h'' <;> cases h''
          · split at h'' <;> (split at h'' <;> cases h'')
  cases op with
  | radians x => exact hrad _ h
  | degrees x => exact hrad _ h
  | hours x => exact hrad _ h
  | hms x y z => exact hrad _ h
  | dms d m s =>
    have hd := hrad ((|d| + |m| / 60 + |s| / 3600) * π / 180)
    simp only [step, setDms, setDegrees] at h ⊢
    split at h
    · cases h
    · rename_i a' e' heq
      rw [heq] at hd
      cases h
      exact hd rfl
  | range x =>
    simp only [step, setRange] at h ⊢
    cases x with
    | none => exact hinst _ h
    | bad => rfl
    | pair lo up =>
      simp only [RangeArg.toTriple] at h ⊢
      split
      · rfl
      · rename_i hlt
        rw [if_neg hlt] at h
        exact hinst _ h
    | triple lo up c =>
      simp only [RangeArg.toTriple] at h ⊢
      split
      · rfl
      · rename_i hlt
        rw [if_neg hlt] at h
        exact hinst _ h

/-- C24: with a wrapping range (cycle not positive) every value is accepted, and what is stored differs from the assigned value by a
whole number of range widths and lies in the half-open range. -/
theorem wrap_congruent {a : AC} {r : Range} (hr : a.range = some r) {c : ℝ} (hc : r.cycle = some c) (hc0 : c ≤ 0) (hw : r.low < r.up)
    (x : ℝ) : (setRadians a x).2 = none ∧ (∃ n : ℤ, (setRadians a x).1.val = x + n * (r.up - r.low)) ∧
      r.low ≤ (setRadians a x).1.val ∧ (setRadians a x).1.val < r.up := by
  have hne : ¬ r.up - r.low = 0 := by linarith
  have hwp : 0 < r.up - r.low := by linarith
  have hcc : ¬ 0 < c := not_lt.2 hc0
  have e : setRadians a x = ({ a with val := pymod (x - r.low) (r.up - r.low) + r.low }, none) := by
    simp [setRadians, hr, checkRange, hc, hcc, hne]
  rw [e]
  refine ⟨rfl, ⟨-⌊(x - r.low) / (r.up - r.low)⌋, ?_⟩, ?_, ?_⟩
  · simp only [pymod]; push_cast; ring
  · have := pymod_nonneg (x := x - r.low) hwp
    simp only; linarith
  · have := pymod_lt (x := x - r.low) hwp
    simp only; linarith

/-- C24: with a triangle-wave range whose period is twice the width, the stored value is the assigned one up to whole periods, or its
mirror image in the upper edge up to whole periods. -/
theorem triangle_congruent {a : AC} {r : Range} (hr : a.range = some r) (hc : r.cycle = some (2 * (r.up - r.low))) (hw : r.low < r.up)
    (x : ℝ) : (setRadians a x).2 = none ∧
      ∃ n : ℤ, (setRadians a x).1.val = x + n * (2 * (r.up - r.low)) ∨
        (setRadians a x).1.val = (2 * r.up - x) + n * (2 * (r.up - r.low)) := by
  have hne : ¬ r.low - r.up = 0 := by linarith
  have hcc : r.low < r.up := by linarith
  have e : setRadians a x = ({ a with val := triangle r.low r.up (2 * (r.up - r.low)) x }, none) := by
    simp [setRadians, hr, checkRange, hc, hcc, hne]
  rw [e]
  exact ⟨rfl, triangle_fold hw⟩

/-- C24: a value inside the range is stored as it is (half-open range for wrapping). -/
theorem assigned_in_range_kept {a : AC} {r : Range} (hr : a.range = some r) {x : ℝ} (h0 : r.low ≤ x) (h1 : x ≤ r.up)
    (hc : r.cycle = none ∨ (∃ c ≤ 0, r.cycle = some c ∧ x < r.up) ∨ (r.cycle = some (2 * (r.up - r.low)) ∧ r.low < r.up)) :
    setRadians a x = ({ a with val := x }, none) := by
  rcases hc with hc | ⟨c, hc0, hc, hlt⟩ | ⟨hc, hw⟩
  · simp [setRadians, hr, checkRange, hc, h0, h1]
  · have hne : ¬ r.up - r.low = 0 := by linarith
    have hcc : ¬ 0 < c := not_lt.2 hc0
    have := pymod_of_mem (x := x - r.low) (y := r.up - r.low) (by linarith) (by linarith)
    simp [setRadians, hr, checkRange, hc, hcc, hne, this]
  · have hne : ¬ r.low - r.up = 0 := by linarith
    have := triangle_id hw ⟨h0, h1⟩
    simp [setRadians, hr, checkRange, hc, hw, hne, this]

/-- C24: a range that does not wrap accepts exactly the values inside. -/
theorem strict_accepts_iff {a : AC} {r : Range} (hr : a.range = some r) (hc : r.cycle = none) (x : ℝ) :
    (setRadians a x).2 = none ↔ r.low ≤ x ∧ x ≤ r.up := by
  unfold setRadians checkRange
  rw [hr]
  simp only [hc]
  split
  · rename_i h
    split at h
    · simp_all
    · cases h
  · rename_i h
    split at h
    · cases h
    · simp_all

/-- C24: degrees, hours and tuples are assigned as the angles they denote. -/
theorem units_agree (a : AC) (x : ℝ) :
    step a (.degrees x) = step a (.radians (x * (π / 180))) ∧ step a (.hours x) = step a (.degrees (15 * x)) ∧
    (∀ m s : ℝ, step a (.hms x m s) = step a (.hours (x + m / 60 + s / 3600))) ∧
    (∀ m s : ℝ, 0 ≤ x → 0 ≤ m → 0 ≤ s → step a (.dms x m s) = step a (.degrees (x + m / 60 + s / 3600))) := by
  refine ⟨?_, ?_, ?_, ?_⟩
  · simp only [step, setDegrees]; congr 1; ring
  · simp only [step, setDegrees, setHours]; congr 1; ring
  · intro m s; simp only [step, setHms, setDegrees, setHours]; congr 1; ring
  · intro m s hx hm hs
    simp only [step, setDms, setDegrees]
    rw [abs_of_nonneg hx, abs_of_nonneg hm, abs_of_nonneg hs]
    split
    · rename_i a' h
      rw [if_neg (not_lt.2 hx)]; exact h.symm
    · rename_i a' e h
      exact h.symm

theorem rad_0 : rad 0 = 0 := by unfold rad; ring

theorem degrees_rad (x : ℝ) (r : Option Range) : degrees ⟨rad x, r⟩ = x := by
  have := Real.pi_pos.ne'
  unfold degrees rad
  field_simp

/-- C24: a new angle reads in degrees as it was given, up to full turns if its range is a full turn; with another pair as range exactly
the angles inside it are accepted, and kept. -/
theorem construct_degrees (deg lo up : ℝ) (hw : lo < up) :
    (∃ a, construct deg .none = .ok a ∧ degrees a = deg) ∧
    (up - lo = 360 → ∃ a, ∃ n : ℤ, construct deg (.pair lo up) = .ok a ∧ degrees a = deg + 360 * n ∧ lo ≤ degrees a ∧ degrees a < up) ∧
    (up - lo ≠ 360 → lo ≤ deg ∧ deg ≤ up → ∃ a, construct deg (.pair lo up) = .ok a ∧ degrees a = deg) ∧
    (up - lo ≠ 360 → ¬ (lo ≤ deg ∧ deg ≤ up) → construct deg (.pair lo up) = .error .value) := by
  have hp := Real.pi_pos
  refine ⟨⟨_, rfl, degrees_rad deg _⟩, ?_, ?_, ?_⟩
  · intro h
    have hw' : rad lo < rad up := rad_lt.2 hw
    have hc : (some (rad 0) : Option ℝ) = some 0 := by rw [rad_0]
    obtain ⟨h1, ⟨n, hn⟩, h2, h3⟩ := wrap_congruent (a := ⟨rad deg, some ⟨rad lo, rad up, some (rad 0)⟩⟩) rfl (c := rad 0) rfl (by rw [rad_0])
      hw' (rad deg)
    have hd : rad up - rad lo = rad 360 := by rw [← h]; unfold rad; ring
    simp only [setRadians] at h1 hn h2 h3
    cases hcr : checkRange (some ⟨rad lo, rad up, some (rad 0)⟩) (rad deg) with
    | error e => rw [hcr] at h1; cases h1
    | ok v =>
      simp only [hcr] at hn h2 h3
      have hcon : construct deg (.pair lo up) = .ok ⟨v, some ⟨rad lo, rad up, some (rad 0)⟩⟩ := by
        simp only [construct, setRange, RangeArg.toTriple, h, if_true, not_lt.2 hw.le, gt_iff_lt, if_false, installRange, Option.map_some, hcr]
      refine ⟨_, n, hcon, ?_, ?_, ?_⟩
      · have : v = rad (deg + 360 * n) := by rw [hn, hd]; unfold rad; ring
        rw [this, degrees_rad]
      · have : v = rad (deg + 360 * n) := by rw [hn, hd]; unfold rad; ring
        rw [this] at h2 ⊢; rw [degrees_rad]; exact rad_le.1 h2
      · have : v = rad (deg + 360 * n) := by rw [hn, hd]; unfold rad; ring
        rw [this] at h3 ⊢; rw [degrees_rad]; exact rad_lt.1 h3
  · rintro h ⟨h0, h1⟩
    refine ⟨⟨rad deg, some ⟨rad lo, rad up, none⟩⟩, ?_, degrees_rad deg _⟩
    simp only [construct, setRange, RangeArg.toTriple, h, if_false, not_lt.2 hw.le, gt_iff_lt, installRange, Option.map_none, checkRange,
      rad_le.2 h0, rad_le.2 h1, and_self, if_true]
  · intro h hn
    have hn' : ¬ (rad lo ≤ rad deg ∧ rad deg ≤ rad up) := by rwa [rad_le, rad_le]
    simp only [construct, setRange, RangeArg.toTriple, h, if_false, not_lt.2 hw.le, gt_iff_lt, installRange, Option.map_none, checkRange, hn']

/-! ## Witnesses and counterexamples -/

theorem rad_360 : rad 360 = 2 * π := by unfold rad; ring

/-- Non-vacuity: assign range (0,360), then −10°, then try range (0,90), rejected: 350° remain. -/
example : SafeRun ⟨0, none⟩ [.range (.pair 0 360), .degrees (-10), .range (.pair 0 90)] ∧
    (run ⟨0, none⟩ [.range (.pair 0 360), .degrees (-10), .range (.pair 0 90)]).val = rad 350 := by
  have hp := Real.pi_pos
  have e1 : step ⟨0, none⟩ (.range (.pair 0 360)) = (⟨0, some ⟨0, 2 * π, some 0⟩⟩, none) := by
    have h : pymod 0 (2 * π) = 0 := pymod_of_mem le_rfl (by positivity)
    simp [step, setRange, RangeArg.toTriple, installRange, checkRange, rad_0, rad_360, h]
  have hm : pymod (-10 * π / 180) (2 * π) = rad 350 := by
    have : ⌊(-10 * π / 180) / (2 * π)⌋ = -1 := by
      rw [Int.floor_eq_iff]
      have : (-10 * π / 180) / (2 * π) = -1/36 := by field_simp; norm_num
      rw [this]; norm_num
    unfold pymod rad; rw [this]; push_cast; ring
  have e2 : step ⟨0, some ⟨0, 2 * π, some 0⟩⟩ (.degrees (-10)) = (⟨rad 350, some ⟨0, 2 * π, some 0⟩⟩, none) := by
    have hm' : pymod (-(10 * π) / 180) (2 * π) = rad 350 := by rw [← hm]; congr 1; ring
    simp [step, setDegrees, setRadians, checkRange, hm']
  have e3 : (step ⟨rad 350, some ⟨0, 2 * π, some 0⟩⟩ (.range (.pair 0 90))).1 = ⟨rad 350, some ⟨0, 2 * π, some 0⟩⟩ := by
    have : ¬ rad 350 ≤ rad 90 := by rw [rad_le]; norm_num
    simp [step, setRange, RangeArg.toTriple, installRange, checkRange, this, show ¬ (90:ℝ) = 360 by norm_num]
  refine ⟨⟨trivial, trivial, trivial, trivial⟩, ?_⟩
  simp only [run]
  rw [e1]; simp only
  rw [e2]; simp only
  rw [e3]

/-- Counterexample to the full claim of C24: with range (0,360), assigning the triple (−10,0,0) stores −10°, outside the range. -/
theorem negative_dms_escapes : ¬ InRange (run ⟨0, none⟩ [.range (.pair 0 360), .dms (-10) 0 0]) := by
  have hp := Real.pi_pos
  have e1 : step ⟨0, none⟩ (.range (.pair 0 360)) = (⟨0, some ⟨0, 2 * π, some 0⟩⟩, none) := by
    have h : pymod 0 (2 * π) = 0 := pymod_of_mem le_rfl (by positivity)
    simp [step, setRange, RangeArg.toTriple, installRange, checkRange, rad_0, rad_360, h]
  have hm : pymod (10 * π / 180) (2 * π) = 10 * π / 180 := pymod_of_mem (by positivity) (by linarith)
  have e2 : (step ⟨0, some ⟨0, 2 * π, some 0⟩⟩ (.dms (-10) 0 0)).1 = ⟨-(10 * π / 180), some ⟨0, 2 * π, some 0⟩⟩ := by
    simp [step, setDms, setDegrees, setRadians, checkRange, hm]
  intro h
  simp only [run] at h
  rw [e1] at h; simp only at h
  rw [e2] at h
  have := (h _ rfl).1
  simp only at this
  linarith

/-- Second counterexample: a zero-width wrapping range raises ZeroDivisionError and stays in force around a value outside it. -/
theorem zero_width_escapes : (step ⟨1, none⟩ (.range (.triple 0 0 (some 0)))).2 = some .zeroDiv ∧
    ¬ InRange (step ⟨1, none⟩ (.range (.triple 0 0 (some 0)))).1 := by
  have e : step ⟨1, none⟩ (.range (.triple 0 0 (some 0))) = (⟨1, some ⟨0, 0, some 0⟩⟩, some .zeroDiv) := by
    simp [step, setRange, RangeArg.toTriple, installRange, checkRange, rad_0]
  rw [e]
  refine ⟨rfl, fun h => ?_⟩
  have := (h _ rfl).2
  simp only at this
  linarith

/-- Third counterexample: under the range (−90, 0) the triple (−10,0,0), which denotes an angle inside it, is rejected. -/
theorem negative_dms_rejected : (setDms ⟨0, some ⟨rad (-90), 0, none⟩⟩ (-10) 0 0).2 = some .value := by
  have hp := Real.pi_pos
  have : ¬ 10 * π / 180 ≤ 0 := by linarith
  simp [setDms, setDegrees, setRadians, checkRange, this]

end

end Verif.Angle

import Verif.AngleProps

/-!
# Sexagesimal components and strings of angles (C25, C26)
-/

namespace Verif.Angle

noncomputable section

open Real

/-! ## Truncation and splitting -/

theorem pyint_of_nonneg {x : ℝ} (h : 0 ≤ x) : pyint x = ⌊x⌋ := by simp [pyint, not_lt.2 h]

theorem pyint_int_add {d : ℤ} {x : ℝ} (hd : 0 ≤ d) (h0 : 0 ≤ x) (h1 : x < 1) : pyint (d + x) = d := by
  have hd' : (0 : ℝ) ≤ d := by exact_mod_cast hd
  rw [pyint_of_nonneg (by linarith), Int.floor_eq_iff]
  constructor <;> linarith

theorem degrees_of_rad (x : ℝ) (r : Option Range) : degrees ⟨x * π / 180, r⟩ = x := by
  have := Real.pi_pos.ne'
  unfold degrees; field_simp

theorem rad_degrees (a : AC) : degrees a * π / 180 = a.val := by
  have := Real.pi_pos.ne'
  unfold degrees; field_simp

/-- The components of `|degrees|`: whole degrees, minutes below 60, seconds below 60, which add up. -/
theorem getDms_spec (a : AC) :
    ∃ d m : ℤ, ∃ s : ℝ, 0 ≤ d ∧ 0 ≤ m ∧ m < 60 ∧ 0 ≤ s ∧ s < 60 ∧ |degrees a| = d + m / 60 + s / 3600 ∧
      getDms a = (if degrees a < 0 then -d else d, m, s) := by
  have h0 : 0 ≤ |degrees a| := abs_nonneg _
  set F := |degrees a| with hF
  have hd : pyint F = ⌊F⌋ := pyint_of_nonneg h0
  have l1 := Int.floor_le F
  have l2 := Int.lt_floor_add_one F
  have hf0 : 0 ≤ (F - ⌊F⌋) * 60 := by linarith
  have hm : pyint ((F - ⌊F⌋) * 60) = ⌊(F - ⌊F⌋) * 60⌋ := pyint_of_nonneg hf0
  have m1 := Int.floor_le ((F - ⌊F⌋) * 60)
  have m2 := Int.lt_floor_add_one ((F - ⌊F⌋) * 60)
  refine ⟨⌊F⌋, ⌊(F - ⌊F⌋) * 60⌋, (F - ⌊F⌋) * 3600 - ⌊(F - ⌊F⌋) * 60⌋ * 60, Int.floor_nonneg.2 h0, Int.floor_nonneg.2 hf0, ?_, ?_, ?_, ?_, ?_⟩
  · rw [Int.floor_lt]; push_cast; linarith
  · linarith
  · linarith
  · ring
  · simp only [getDms, ← hF, hd, hm]

/-- Uniqueness of the splitting. -/
theorem split_unique {d m : ℤ} {s : ℝ} {d' m' : ℤ} {s' : ℝ} (hm : 0 ≤ m) (hm' : m < 60) (hs : 0 ≤ s) (hs' : s < 60)
    (km : 0 ≤ m') (km' : m' < 60) (ks : 0 ≤ s') (ks' : s' < 60)
    (h : (d : ℝ) + m / 60 + s / 3600 = d' + m' / 60 + s' / 3600) : d = d' ∧ m = m' ∧ s = s' := by
  have a1 : (0:ℝ) ≤ m := by exact_mod_cast hm
  have a2 : (m:ℝ) ≤ 59 := by exact_mod_cast (by omega : m ≤ 59)
  have b1 : (0:ℝ) ≤ m' := by exact_mod_cast km
  have b2 : (m':ℝ) ≤ 59 := by exact_mod_cast (by omega : m' ≤ 59)
  have hd : d = d' := by
    have u1 : (d:ℝ) < d' + 1 := by linarith
    have u2 : (d':ℝ) < d + 1 := by linarith
    have v1 : d < d' + 1 := by exact_mod_cast u1
    have v2 : d' < d + 1 := by exact_mod_cast u2
    omega
  subst hd
  have hmm : m = m' := by
    have u1 : (m:ℝ) < m' + 1 := by linarith
    have u2 : (m':ℝ) < m + 1 := by linarith
    have v1 : m < m' + 1 := by exact_mod_cast u1
    have v2 : m' < m + 1 := by exact_mod_cast u2
    omega
  subst hmm
  exact ⟨rfl, rfl, by linarith⟩

/-! ## C25: degrees, minutes, seconds -/

/-- Reading d,m,s always gives whole degrees, whole minutes in 0..59 and seconds in [0,60). -/
theorem getDms_bounds (a : AC) : 0 ≤ (getDms a).2.1 ∧ (getDms a).2.1 < 60 ∧ 0 ≤ (getDms a).2.2 ∧ (getDms a).2.2 < 60 := by
  obtain ⟨d, m, s, hd, hm0, hm1, hs0, hs1, hF, he⟩ := getDms_spec a
  rw [he]; exact ⟨hm0, hm1, hs0, hs1⟩

theorem setDms_none (v d m s : ℝ) : setDms ⟨v, none⟩ d m s =
    (⟨(if d < 0 then -1 else 1) * ((|d| + |m| / 60 + |s| / 3600) * π / 180), none⟩, none) := by
  simp only [setDms, setDegrees, setRadians, checkRange]
  split <;> simp [mul_comm]

/-- C25: writing a triple of whole degrees, whole minutes and seconds (0 ≤ m,s < 60) and reading it back gives the triple, for either
sign of the degrees. -/
theorem dms_set_get (v : ℝ) (d m : ℤ) (s : ℝ) (hm : 0 ≤ m) (hm' : m < 60) (hs : 0 ≤ s) (hs' : s < 60) :
    getDms (setDms ⟨v, none⟩ d m s).1 = (d, m, s) := by
  rw [setDms_none]
  have a1 : (0:ℝ) ≤ m := by exact_mod_cast hm
  have hval : (0:ℝ) ≤ |(d:ℝ)| + |(m:ℝ)| / 60 + |s| / 3600 := by positivity
  set x := |(d:ℝ)| + |(m:ℝ)| / 60 + |s| / 3600 with hx
  have hdeg : degrees ⟨(if (d:ℝ) < 0 then -1 else 1) * (x * π / 180), none⟩ = (if (d:ℝ) < 0 then -1 else 1) * x := by
    have := Real.pi_pos.ne'
    unfold degrees; field_simp
  obtain ⟨d', m', s', hd, hm0, hm1, hs0, hs1, hF, he⟩ := getDms_spec ⟨(if (d:ℝ) < 0 then -1 else 1) * (x * π / 180), none⟩
  rw [he]
  rw [hdeg] at hF ⊢
  have hF' : x = d' + m' / 60 + s' / 3600 := by
    rw [← hF]; split
    · rw [abs_mul]; simp [abs_of_nonneg hval]
    · simp [abs_of_nonneg hval]
  have hx' : x = ((|d| : ℤ) : ℝ) + m / 60 + s / 3600 := by
    rw [hx, abs_of_nonneg a1, abs_of_nonneg hs]; push_cast; ring
  obtain ⟨e1, e2, e3⟩ := split_unique hm hm' hs hs' hm0 hm1 hs0 hs1 (hx'.symm.trans hF')
  subst e2 e3
  rw [← e1]
  by_cases hneg : d < 0
  · have hr : (d:ℝ) < 0 := by exact_mod_cast hneg
    have hpos : 0 < x := by
      have : 0 < |(d:ℝ)| := abs_pos.2 hr.ne
      have : 0 ≤ |(m:ℝ)| / 60 := by positivity
      have : 0 ≤ |s| / 3600 := by positivity
      rw [hx]; linarith
    simp only [hr, if_true]
    have hx0 : (-1 : ℝ) * x < 0 := by linarith
    rw [if_pos hx0, abs_of_neg hneg, neg_neg]
  · have hr : ¬ (d:ℝ) < 0 := by exact_mod_cast hneg
    simp only [hr, if_false]
    have hx0 : ¬ (1 : ℝ) * x < 0 := by linarith
    rw [if_neg hx0, abs_of_nonneg (not_lt.1 hneg)]

/-- C25: reading an angle as d,m,s and writing it back gives the same angle exactly when the angle is not strictly between −1° and 0°
(there the sign of −0 is lost). -/
theorem dms_get_set_iff (a : AC) (v : ℝ) :
    (setDms ⟨v, none⟩ (getDms a).1 (getDms a).2.1 (getDms a).2.2).1.val = a.val ↔ ¬ (-1 < degrees a ∧ degrees a < 0) := by
  obtain ⟨d, m, s, hd, hm0, hm1, hs0, hs1, hF, he⟩ := getDms_spec a
  rw [he]
  simp only
  rw [setDms_none]
  have hp := Real.pi_pos
  have a0 : (0:ℝ) ≤ d := by exact_mod_cast hd
  have a1 : (0:ℝ) ≤ m := by exact_mod_cast hm0
  have a2 : (m:ℝ) ≤ 59 := by exact_mod_cast (by omega : m ≤ 59)
  have habs : |(((if degrees a < 0 then -d else d) : ℤ) : ℝ)| = d := by
    split
    · push_cast; rw [abs_neg, abs_of_nonneg a0]
    · exact abs_of_nonneg a0
  simp only [habs, abs_of_nonneg a1, abs_of_nonneg hs0, ← hF]
  by_cases hneg : degrees a < 0
  · rw [if_pos hneg]
    by_cases hd0 : d = 0
    · subst hd0
      have : -1 < degrees a := by
        rw [abs_of_neg hneg] at hF
        push_cast at hF
        linarith
      have e : ¬ (((-0 : ℤ)) : ℝ) < 0 := by simp
      rw [if_neg e, abs_of_neg hneg]
      constructor
      · intro h
        exfalso
        have := rad_degrees a
        have : degrees a * π < 0 := mul_neg_of_neg_of_pos hneg hp
        linarith
      · intro h; exact absurd ⟨‹_›, hneg⟩ h
    · have hd1 : (1:ℝ) ≤ d := by exact_mod_cast (by omega : 1 ≤ d)
      have e : (((-d : ℤ)) : ℝ) < 0 := by push_cast; linarith
      rw [if_pos e, abs_of_neg hneg]
      constructor
      · intro _ h
        rw [abs_of_neg hneg] at hF
        have : 0 ≤ s / 3600 := by positivity
        linarith [h.1]
      · intro _
        have := rad_degrees a
        linarith
  · rw [if_neg hneg]
    have e : ¬ (d : ℝ) < 0 := not_lt.2 a0
    rw [if_neg e, abs_of_nonneg (not_lt.1 hneg)]
    constructor
    · intro _ h; exact hneg h.2
    · intro _; have := rad_degrees a; linarith

/-- C25, second claim for d,m,s: for angles that are not strictly between −1° and 0°. -/
theorem dms_get_set (a : AC) (v : ℝ) (h : 0 ≤ degrees a ∨ degrees a ≤ -1) :
    (setDms ⟨v, none⟩ (getDms a).1 (getDms a).2.1 (getDms a).2.2).1.val = a.val := by
  rw [dms_get_set_iff]
  rintro ⟨h1, h2⟩
  rcases h with h | h <;> linarith

/-- Counterexample to the full claim: half a degree south reads as (0,30,0), which is half a degree north. -/
theorem half_degree_sign_lost : ∃ a : AC, degrees a = -1/2 ∧ degrees (setDms a (getDms a).1 (getDms a).2.1 (getDms a).2.2).1 = 1/2 := by
  refine ⟨⟨(-1/2) * π / 180, none⟩, degrees_of_rad _ _, ?_⟩
  have hd : degrees ⟨(-1/2) * π / 180, none⟩ = -1/2 := degrees_of_rad _ _
  have h1 : |(-1:ℝ)/2| = 1/2 := by rw [abs_of_neg] <;> norm_num
  have h2 : pyint (1/2) = 0 := by rw [pyint_of_nonneg (by norm_num), Int.floor_eq_iff]; norm_num
  have h3 : pyint (1/2*60) = 30 := by rw [pyint_of_nonneg (by norm_num), Int.floor_eq_iff]; norm_num
  have hg : getDms ⟨(-1/2) * π / 180, none⟩ = (0, 30, 0) := by
    simp only [getDms, hd, h1, h2]
    norm_num
    have : pyint 30 = 30 := by rw [pyint_of_nonneg (by norm_num), Int.floor_eq_iff]; norm_num
    rw [this]; norm_num
  rw [hg]
  simp only
  rw [setDms_none]
  norm_num
  rw [degrees_of_rad (1/2) none]

/-! ## C25: hours, minutes, seconds -/

theorem setHms_none (v h m s : ℝ) : setHms ⟨v, none⟩ h m s = (⟨15 * (h + m / 60 + s / 3600) * π / 180, none⟩, none) := by
  simp [setHms, setDegrees, setRadians, checkRange]

/-- C25: reading an angle as h,m,s and writing it back gives the same angle, for every angle. -/
theorem hms_get_set (a : AC) (v : ℝ) : (setHms ⟨v, none⟩ (getHms a).1 (getHms a).2.1 (getHms a).2.2).1.val = a.val := by
  rw [setHms_none]
  simp only [getHms]
  have := rad_degrees a
  rw [← this]
  ring

theorem getHms_spec (a : AC) (h0 : 0 ≤ degrees a) :
    ∃ h m : ℤ, ∃ s : ℝ, 0 ≤ h ∧ 0 ≤ m ∧ m < 60 ∧ 0 ≤ s ∧ s < 60 ∧ degrees a / 15 = h + m / 60 + s / 3600 ∧ getHms a = (h, m, s) := by
  have h0 : 0 ≤ degrees a / 15 := by positivity
  set F := degrees a / 15 with hF
  have hd : pyint F = ⌊F⌋ := pyint_of_nonneg h0
  have l1 := Int.floor_le F
  have l2 := Int.lt_floor_add_one F
  have hf0 : 0 ≤ (F - ⌊F⌋) * 60 := by linarith
  have hm : pyint ((F - ⌊F⌋) * 60) = ⌊(F - ⌊F⌋) * 60⌋ := pyint_of_nonneg hf0
  have m1 := Int.floor_le ((F - ⌊F⌋) * 60)
  have m2 := Int.lt_floor_add_one ((F - ⌊F⌋) * 60)
  refine ⟨⌊F⌋, ⌊(F - ⌊F⌋) * 60⌋, (F - ⌊F⌋) * 3600 - ⌊(F - ⌊F⌋) * 60⌋ * 60, Int.floor_nonneg.2 h0, Int.floor_nonneg.2 hf0, ?_, ?_, ?_, ?_, ?_⟩
  · rw [Int.floor_lt]; push_cast; linarith
  · linarith
  · linarith
  · ring
  · simp only [getHms, ← hF, hd, hm]

/-- C25: writing a triple of whole hours, whole minutes and seconds and reading it back gives the triple if the hours are not negative. -/
theorem hms_set_get (v : ℝ) (h m : ℤ) (s : ℝ) (hh : 0 ≤ h) (hm : 0 ≤ m) (hm' : m < 60) (hs : 0 ≤ s) (hs' : s < 60) :
    getHms (setHms ⟨v, none⟩ h m s).1 = (h, m, s) := by
  rw [setHms_none]
  have hh' : (0:ℝ) ≤ h := by exact_mod_cast hh
  have a1 : (0:ℝ) ≤ m := by exact_mod_cast hm
  have hdeg := degrees_of_rad (15 * (h + m / 60 + s / 3600)) none
  obtain ⟨h', m', s', k0, k1, k2, k3, k4, hF, he⟩ := getHms_spec ⟨15 * (h + m / 60 + s / 3600) * π / 180, none⟩ (by rw [hdeg]; positivity)
  rw [he]
  rw [hdeg] at hF
  have := split_unique hm hm' hs hs' k1 k2 k3 k4 (d := h) (d' := h') (by rw [← hF]; ring)
  obtain ⟨rfl, rfl, rfl⟩ := this
  rfl

/-- Counterexample to the full claim for hours: (−1, 30, 0) reads back as (0, −30, 0). -/
theorem negative_hours_not_inverse : getHms (setHms ⟨0, none⟩ (-1) 30 0).1 = (0, -30, 0) := by
  rw [setHms_none]
  have hdeg := degrees_of_rad (15 * (-1 + 30 / 60 + 0 / 3600)) none
  simp only [getHms, hdeg]
  have h2 : pyint (15 * (-1 + 30 / 60 + 0 / 3600) / 15) = 0 := by
    have : (15 * (-1 + 30 / 60 + 0 / 3600) / 15 : ℝ) = -1/2 := by norm_num
    rw [this, pyint, if_pos (by norm_num), Int.ceil_eq_iff]; norm_num
  rw [h2]
  have h3 : pyint ((15 * (-1 + 30 / 60 + 0 / 3600) / 15 - ((0:ℤ):ℝ)) * 60) = -30 := by
    have : ((15 * (-1 + 30 / 60 + 0 / 3600) / 15 - ((0:ℤ):ℝ)) * 60 : ℝ) = ((-30 : ℤ) : ℝ) := by norm_num
    rw [this, pyint, if_pos (by norm_num), Int.ceil_intCast]
  rw [h3]; norm_num

/-! ## C26: strings -/

/-- Rounding to a nearest integer, whatever is done with ties. -/
def Nearest (rnd : ℝ → ℤ) : Prop := ∀ x, |x - rnd x| ≤ 1/2

theorem nearest_round : Nearest round := fun x => abs_sub_round x

/-- The angle in degrees a printed d,m,s string denotes. -/
def Printed.value (p : ℕ) (x : Printed) : ℝ :=
  (if x.neg then -1 else 1) * (x.deg + x.min / 60 + (x.sec / 10 ^ p : ℝ) / 3600)

theorem rnd_le {rnd : ℝ → ℤ} (h : Nearest rnd) {x : ℝ} {n : ℤ} (hx : x < n) : rnd x ≤ n := by
  have := abs_le.1 (h x)
  have : (rnd x : ℝ) < n + 1 := by linarith [this.1]
  have : rnd x < n + 1 := by exact_mod_cast this
  omega

theorem rnd_nonneg {rnd : ℝ → ℤ} (h : Nearest rnd) {x : ℝ} (hx : 0 ≤ x) : 0 ≤ rnd x := by
  have := abs_le.1 (h x)
  have : ((-1 : ℤ) : ℝ) < rnd x := by push_cast; linarith [this.2]
  have : -1 < rnd x := by exact_mod_cast this
  omega

theorem rnd_zero {rnd : ℝ → ℤ} (h : Nearest rnd) : rnd 0 = 0 := by
  have := abs_le.1 (h 0)
  have h1 : (rnd 0 : ℝ) < 1 := by linarith [this.1]
  have h2 : (-1:ℝ) < rnd 0 := by linarith [this.2]
  have h1 : rnd 0 < 1 := by exact_mod_cast h1
  have h2 : -1 < rnd 0 := by exact_mod_cast h2
  omega

/-- C26: a printed d,m,s string never shows 60 minutes or 60 seconds, and its fields are not negative. -/
theorem dmsStr_fields {rnd : ℝ → ℤ} (hr : Nearest rnd) (p : ℕ) (a : AC) :
    let x := getDmsStr rnd p a
    0 ≤ x.deg ∧ 0 ≤ x.min ∧ x.min < 60 ∧ 0 ≤ x.sec ∧ x.sec < 60 * 10 ^ p := by
  obtain ⟨d, m, s, hd, hm0, hm1, hs0, hs1, hF, he⟩ := getDms_spec a
  have hk0 := rnd_nonneg hr (x := s * 10 ^ p) (by positivity)
  have hz := rnd_zero hr
  have hpow : (0:ℤ) < 60 * 10 ^ p := by positivity
  simp only [getDmsStr, he]
  split
  · split
    · simp only [hz]; exact ⟨abs_nonneg _, by norm_num, by norm_num, le_rfl, hpow⟩
    · simp only [hz]; exact ⟨abs_nonneg _, by omega, by omega, le_rfl, hpow⟩
  · rename_i h
    exact ⟨abs_nonneg _, hm0, hm1, hk0, not_le.1 h⟩

/-- The case in which a degree string is wrong: the angle is at most −1° and its rounded seconds and minutes carry into the degrees. -/
def CarryIntoNegativeDegrees (rnd : ℝ → ℤ) (p : ℕ) (a : AC) : Prop :=
  degrees a ≤ -1 ∧ (getDms a).2.1 = 59 ∧ rnd ((getDms a).2.2 * 10 ^ p) = 60 * 10 ^ p

theorem rnd_carry {rnd : ℝ → ℤ} (hr : Nearest rnd) {p : ℕ} {s : ℝ} (hs : s < 60) (h : rnd (s * 10 ^ p) ≥ 60 * 10 ^ p) :
    rnd (s * 10 ^ p) = 60 * 10 ^ p := by
  apply le_antisymm _ h
  apply rnd_le hr
  push_cast
  have : (0:ℝ) < 10 ^ p := by positivity
  nlinarith

theorem val_neg_iff (a : AC) : a.val < 0 ↔ degrees a < 0 := by
  have hp := Real.pi_pos
  have := rad_degrees a
  constructor
  · intro h
    by_contra hc
    have : 0 ≤ degrees a * π := mul_nonneg (not_lt.1 hc) hp.le
    linarith
  · intro h
    have : degrees a * π < 0 := mul_neg_of_neg_of_pos h hp
    linarith

/-- C26: outside that case the printed string denotes the angle rounded to the printed precision: it is within half a unit of the last
printed digit of the seconds. -/
theorem dmsStr_value {rnd : ℝ → ℤ} (hr : Nearest rnd) (p : ℕ) (a : AC) (h : ¬ CarryIntoNegativeDegrees rnd p a) :
    |(getDmsStr rnd p a).value p - degrees a| ≤ 1 / 2 / 10 ^ p / 3600 := by
  obtain ⟨d, m, s, hd, hm0, hm1, hs0, hs1, hF, he⟩ := getDms_spec a
  have a0 : (0:ℝ) ≤ d := by exact_mod_cast hd
  have a1 : (0:ℝ) ≤ m := by exact_mod_cast hm0
  have hpow : (0:ℝ) < 10 ^ p := by positivity
  have hz := rnd_zero hr
  -- the claim for magnitudes
  have key : ∀ (D M K : ℤ), ((D:ℝ) + M / 60 + (K / 10 ^ p : ℝ) / 3600 = d + m / 60 + ((rnd (s * 10 ^ p) : ℝ) / 10 ^ p) / 3600) →
      |(Printed.mk (decide (a.val < 0)) D M K).value p - degrees a| ≤ 1 / 2 / 10 ^ p / 3600 := by
    intro D M K hDM
    have hmag : |((D:ℝ) + M / 60 + (K / 10 ^ p : ℝ) / 3600) - abs (degrees a)| ≤ 1 / 2 / 10 ^ p / 3600 := by
      rw [hDM, hF]
      have := hr (s * 10 ^ p)
      have e : (d:ℝ) + m / 60 + (rnd (s * 10 ^ p) : ℝ) / 10 ^ p / 3600 - (d + m / 60 + s / 3600) =
          -((s * 10 ^ p - rnd (s * 10 ^ p)) / 10 ^ p / 3600) := by field_simp; ring
      rw [e, abs_neg, abs_div, abs_div, abs_of_pos hpow, abs_of_pos (by norm_num : (0:ℝ) < 3600)]
      apply div_le_div_of_nonneg_right _ (by norm_num)
      apply div_le_div_of_nonneg_right this hpow.le
    simp only [Printed.value]
    by_cases hv : a.val < 0
    · have hneg := (val_neg_iff a).1 hv
      rw [abs_of_neg hneg] at hmag
      simp only [hv, decide_true, if_true]
      rw [show (-1:ℝ) * ((D:ℝ) + M / 60 + (K / 10 ^ p : ℝ) / 3600) - degrees a =
        -(((D:ℝ) + M / 60 + (K / 10 ^ p : ℝ) / 3600) - -degrees a) by ring, abs_neg]
      exact hmag
    · have hneg : ¬ degrees a < 0 := fun h => hv ((val_neg_iff a).2 h)
      rw [abs_of_nonneg (not_lt.1 hneg)] at hmag
      simp only [hv, decide_false, Bool.false_eq_true, if_false, one_mul]
      exact hmag
  have habs : |if degrees a < 0 then -d else d| = d := by split <;> simp [abs_of_nonneg hd]
  have habs1 : ¬ (degrees a < 0 ∧ d ≠ 0) → |(if degrees a < 0 then -d else d) + 1| = d + 1 := by
    intro hn
    split
    · rename_i hc
      have : d = 0 := by by_contra h; exact hn ⟨hc, h⟩
      subst this; simp
    · exact abs_of_nonneg (by omega)
  simp only [getDmsStr, he]
  split
  · rename_i hk
    have hkk := rnd_carry hr hs1 hk
    split
    · rename_i hm
      have hnot : ¬ (degrees a < 0 ∧ d ≠ 0) := by
        rintro ⟨hneg, hd0⟩
        apply h
        refine ⟨?_, by rw [he]; show m = 59; omega, by rw [he]; exact hkk⟩
        rw [abs_of_neg hneg] at hF
        have : (1:ℝ) ≤ d := by exact_mod_cast (by omega : 1 ≤ d)
        have : 0 ≤ s / 3600 := by positivity
        linarith
      simp only [habs1 hnot, hz]
      apply key
      rw [hkk]
      have : (m : ℝ) = 59 := by exact_mod_cast (by omega : m = 59)
      rw [this]; push_cast
      field_simp; norm_num; ring
    · simp only [habs, hz]
      apply key
      rw [hkk]; push_cast
      field_simp; norm_num; ring
  · simp only [habs]
    exact key _ _ _ rfl

/-- Counterexample to the full claim: in the excluded case the string is two degrees off (up to rounding): the degrees printed are one
less in magnitude than those of the angle instead of one more. -/
theorem dmsStr_carry_wrong {rnd : ℝ → ℤ} (hr : Nearest rnd) (p : ℕ) (a : AC) (h : CarryIntoNegativeDegrees rnd p a) :
    (getDmsStr rnd p a).value p = (getDms a).1 + 1 ∧ degrees a < (getDms a).1 - 59/60 := by
  obtain ⟨d, m, s, hd, hm0, hm1, hs0, hs1, hF, he⟩ := getDms_spec a
  obtain ⟨h1, h2, h3⟩ := h
  rw [he] at h2 h3
  simp only at h2 h3
  subst h2
  have hneg : degrees a < 0 := by linarith
  have hv : a.val < 0 := (val_neg_iff a).2 hneg
  have hd1 : 1 ≤ d := by
    rw [abs_of_neg hneg] at hF
    by_contra hc
    have : d = 0 := by omega
    subst this
    push_cast at hF
    linarith
  have hz := rnd_zero hr
  have hs : 0 < s := by
    rcases hs0.lt_or_eq with h | h
    · exact h
    · rw [← h, zero_mul, hz] at h3
      exact absurd h3.symm (by positivity)
  have habs : |-d + 1| = d - 1 := by rw [abs_of_nonpos (by omega)]; omega
  refine ⟨?_, ?_⟩
  · simp only [getDmsStr, he, h3, hneg, if_true, Printed.value, hv, decide_true]
    norm_num [hz, habs]
    ring
  · simp only [he, hneg, if_true]
    rw [abs_of_neg hneg] at hF
    push_cast at hF ⊢
    linarith [div_pos hs (by norm_num : (0:ℝ) < 3600)]

/-- A concrete case: −10°59'59.999" printed with two decimals shows −9°. -/
theorem dmsStr_carry_example : ∃ a : AC, degrees a = -(10 + 59/60 + 59.999/3600) ∧ (getDmsStr round 2 a).value 2 = -9 := by
  refine ⟨(setDms ⟨0, none⟩ ((-10 : ℤ):ℝ) ((59:ℤ):ℝ) 59.999).1, ?_, ?_⟩
  · rw [setDms_none]
    have := Real.pi_pos.ne'
    norm_num [degrees]
    field_simp
  · have hg := dms_set_get 0 (-10) 59 59.999 (by norm_num) (by norm_num) (by norm_num) (by norm_num)
    have hd : degrees (setDms ⟨0, none⟩ ((-10 : ℤ):ℝ) ((59:ℤ):ℝ) 59.999).1 = -(10 + 59/60 + 59.999/3600) := by
      rw [setDms_none]
      have := Real.pi_pos.ne'
      norm_num [degrees]
      field_simp
    have := dmsStr_carry_wrong nearest_round 2 (setDms ⟨0, none⟩ ((-10 : ℤ):ℝ) ((59:ℤ):ℝ) 59.999).1 ⟨by rw [hd]; norm_num, by rw [hg], by
      rw [hg, round_eq, Int.floor_eq_iff]; norm_num⟩
    rw [this.1, hg]; norm_num

/-- Non-vacuity: 10°59'59.999" is not the excluded case, and its string is 11°0'00.00". -/
example : ¬ CarryIntoNegativeDegrees round 2 (setDms ⟨0, none⟩ ((10 : ℤ):ℝ) ((59:ℤ):ℝ) 59.999).1 ∧
    (getDmsStr round 2 (setDms ⟨0, none⟩ ((10 : ℤ):ℝ) ((59:ℤ):ℝ) 59.999).1).value 2 = 11 := by
  have hg := dms_set_get 0 10 59 59.999 (by norm_num) (by norm_num) (by norm_num) (by norm_num)
  have hp := Real.pi_pos
  have hv : 0 < (setDms ⟨0, none⟩ ((10 : ℤ):ℝ) ((59:ℤ):ℝ) 59.999).1.val := by
    rw [setDms_none]; norm_num; positivity
  have hr : round ((59.999 : ℝ) * 10 ^ 2) = 6000 := by rw [round_eq, Int.floor_eq_iff]; norm_num
  constructor
  · rintro ⟨h, -, -⟩
    have := (val_neg_iff (setDms ⟨0, none⟩ ((10 : ℤ):ℝ) ((59:ℤ):ℝ) 59.999).1).2 (by linarith)
    linarith
  · simp only [getDmsStr, hg, hr, Printed.value]
    rw [if_neg (by simpa using hv.le)]
    norm_num

/-- C26 for h,m,s strings, for angles that are not negative: fields within bounds, and the string denotes the angle rounded to the
printed precision, modulo 24 hours. -/
theorem hmsStr_nonneg {rnd : ℝ → ℤ} (hr : Nearest rnd) (p : ℕ) (a : AC) (h0 : 0 ≤ degrees a) :
    let x := getHmsStr rnd p a
    0 ≤ x.1 ∧ 0 ≤ x.2.1 ∧ x.2.1 < 60 ∧ 0 ≤ x.2.2 ∧ x.2.2 < 60 * 10 ^ p ∧
    ∃ n : ℤ, |(x.1 + x.2.1 / 60 + (x.2.2 / 10 ^ p : ℝ) / 3600) + 24 * n - degrees a / 15| ≤ 1 / 2 / 10 ^ p / 3600 := by
  obtain ⟨h, m, s, hd, hm0, hm1, hs0, hs1, hF, he⟩ := getHms_spec a h0
  have hpow : (0:ℝ) < 10 ^ p := by positivity
  have hpowZ : (0:ℤ) < 60 * 10 ^ p := by positivity
  have hk0 := rnd_nonneg hr (x := s * 10 ^ p) (by positivity)
  have hz := rnd_zero hr
  have key : ∀ (D M K n : ℤ), ((D:ℝ) + M / 60 + (K / 10 ^ p : ℝ) / 3600 + 24 * n = h + m / 60 + ((rnd (s * 10 ^ p) : ℝ) / 10 ^ p) / 3600) →
      |((D:ℝ) + M / 60 + (K / 10 ^ p : ℝ) / 3600) + 24 * n - degrees a / 15| ≤ 1 / 2 / 10 ^ p / 3600 := by
    intro D M K n hDM
    rw [hDM, hF]
    have := hr (s * 10 ^ p)
    have e : (h:ℝ) + m / 60 + (rnd (s * 10 ^ p) : ℝ) / 10 ^ p / 3600 - (h + m / 60 + s / 3600) =
        -((s * 10 ^ p - rnd (s * 10 ^ p)) / 10 ^ p / 3600) := by field_simp; ring
    rw [e, abs_neg, abs_div, abs_div, abs_of_pos hpow, abs_of_pos (by norm_num : (0:ℝ) < 3600)]
    apply div_le_div_of_nonneg_right _ (by norm_num)
    apply div_le_div_of_nonneg_right this hpow.le
  simp only [getHmsStr, he]
  split
  · rename_i hk
    have hkk := rnd_carry hr hs1 hk
    have hk' : rnd (((rnd (s * 10 ^ p) : ℝ) / 10 ^ p - 60) * 10 ^ p) = 0 := by
      rw [hkk]; push_cast
      rw [show ((60 * 10 ^ p / 10 ^ p - 60) * 10 ^ p : ℝ) = 0 by field_simp; ring]; exact hz
    rw [hk']
    split
    · rename_i hm
      have hm59 : (m : ℝ) = 59 := by exact_mod_cast (by omega : m = 59)
      split
      · rename_i hh
        have hh23 : (h : ℝ) = 23 := by exact_mod_cast (by omega : h = 23)
        refine ⟨by norm_num, by norm_num, by norm_num, le_rfl, hpowZ, 1, key _ _ _ _ ?_⟩
        rw [hkk, hm59, hh23]; push_cast; field_simp; norm_num; ring
      · refine ⟨by simp only; omega, by norm_num, by norm_num, le_rfl, hpowZ, 0, key _ _ _ _ ?_⟩
        rw [hkk, hm59]; push_cast; field_simp; norm_num; ring
    · refine ⟨hd, by simp only; omega, by simp only; omega, le_rfl, hpowZ, 0, key _ _ _ _ ?_⟩
      rw [hkk]; push_cast; field_simp; norm_num; ring
  · rename_i hk
    refine ⟨hd, hm0, hm1, hk0, not_le.1 hk, 0, key _ _ _ _ ?_⟩
    push_cast; ring

/-- Counterexample to the full claim for h,m,s: minus one hour less half a hundredth of a second's worth prints 60 seconds. -/
theorem hmsStr_negative_shows_sixty : ∃ a : AC, getHmsStr round 2 a = (0, -59, -6000) := by
  refine ⟨(setHms ⟨0, none⟩ 0 (-59) (-59.999)).1, ?_⟩
  rw [setHms_none]
  have hdeg := degrees_of_rad (15 * (0 + -59 / 60 + -59.999 / 3600)) none
  have e1 : (15 * (0 + -59 / 60 + -59.999 / 3600) / 15 : ℝ) = -3599.999 / 3600 := by norm_num
  have h2 : pyint (-3599.999 / 3600) = 0 := by
    rw [pyint, if_pos (by norm_num), Int.ceil_eq_iff]; norm_num
  have h3 : pyint ((-3599.999 / 3600 - ((0:ℤ):ℝ)) * 60) = -59 := by
    rw [pyint, if_pos (by norm_num), Int.ceil_eq_iff]; norm_num
  have hg : getHms ⟨15 * (0 + -59 / 60 + -59.999 / 3600) * π / 180, none⟩ = (0, -59, -59.999) := by
    simp only [getHms, hdeg, e1, h2, h3]; norm_num
  have hr : round ((-59.999 : ℝ) * 10 ^ 2) = -6000 := by rw [round_eq, Int.floor_eq_iff]; norm_num
  simp only [getHmsStr, hg, hr]
  norm_num

/-! ## Differences of angles (C50) -/

/-- C50: `a - b` is the separation with value a − b. -/
theorem sub_value (a b : AC) : (sub a b).val = a.val - b.val := by
  have := Real.pi_pos.ne'
  simp only [sub, sepOfDegrees, rad]
  field_simp

/-- C50: adding the separation back gives the original angle. -/
theorem add_sub_cancel' (a b : AC) : (add b (sub a b)).val = a.val := by
  simp only [add, sub_value]; ring

/-- C50 fails for the documented two-angle constructor: it reports the separation scaled by π/180. -/
theorem sepOfAngles_wrong (a b : AC) : (sepOfAngles a b).val = (b.val - a.val) * (π / 180) := by
  simp only [sepOfAngles, rad]; ring

/-- So the constructor is right only for equal angles. -/
theorem sepOfAngles_right_iff (a b : AC) : (sepOfAngles a b).val = b.val - a.val ↔ a.val = b.val := by
  rw [sepOfAngles_wrong]
  have hp : π / 180 ≠ 1 := by have := Real.pi_le_four; linarith
  constructor
  · intro h
    have : (b.val - a.val) * (π / 180 - 1) = 0 := by linarith
    rcases mul_eq_zero.1 this with h | h
    · linarith
    · exact absurd (by linarith : π / 180 = 1) hp
  · intro h; rw [h]; ring

end

end Verif.Angle

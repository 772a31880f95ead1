import Verif.Calendar
import Mathlib.Tactic.Linarith
import Mathlib.Tactic.FieldSimp
import Mathlib.Tactic.Ring
import Mathlib.Tactic.NormNum

/-!
# Calendar properties (C30-C32, C57)

The specification is the everyday definition of the two calendars (leap years, month lengths, the
day after a date, order of dates); it does not mention the model.
-/

namespace Verif.Calendar

/-! ## Specification -/

/-- Which proper calendar (no automatic choice). -/
inductive System where
  | gregorian
  | julian
deriving DecidableEq, Repr

/-- Leap years: every fourth year; the Gregorian calendar drops centuries not divisible by 400. -/
def leap : System → Int → Prop
  | .julian, y => y % 4 = 0
  | .gregorian, y => y % 4 = 0 ∧ (y % 100 ≠ 0 ∨ y % 400 = 0)

instance (s : System) (y : Int) : Decidable (leap s y) := by
  cases s <;> unfold leap <;> infer_instance

/-- Thirty days hath September... -/
def monthLength (s : System) (y m : Int) : Int :=
  if m = 2 then (if leap s y then 29 else 28)
  else if m = 4 ∨ m = 6 ∨ m = 9 ∨ m = 11 then 30 else 31

/-- A date that exists in the calendar. -/
def Valid (s : System) (d : Date) : Prop :=
  1 ≤ d.month ∧ d.month ≤ 12 ∧ 1 ≤ d.day ∧ d.day ≤ monthLength s d.year d.month

instance (s : System) (d : Date) : Decidable (Valid s d) := by unfold Valid; infer_instance

/-- The following day. -/
def dayAfter (s : System) (d : Date) : Date :=
  if d.day < monthLength s d.year d.month then ⟨d.year, d.month, d.day + 1⟩
  else if d.month < 12 then ⟨d.year, d.month + 1, 1⟩
  else ⟨d.year + 1, 1, 1⟩

/-- Chronological order within a calendar. -/
def Before (a b : Date) : Prop :=
  a.year < b.year ∨ (a.year = b.year ∧ (a.month < b.month ∨ (a.month = b.month ∧ a.day < b.day)))

instance (a b : Date) : Decidable (Before a b) := by unfold Before; infer_instance

/-- The corresponding explicit `gregorian=` argument. -/
def System.flag : System → Cal
  | .gregorian => .gregorian
  | .julian => .julian

/-! ## The day count of each calendar -/

theorem monthCases {m : Int} (h1 : 1 ≤ m) (h2 : m ≤ 12) :
    m = 1 ∨ m = 2 ∨ m = 3 ∨ m = 4 ∨ m = 5 ∨ m = 6 ∨ m = 7 ∨ m = 8 ∨ m = 9 ∨ m = 10 ∨ m = 11 ∨
      m = 12 := by omega

/-- First two terms of the day count, as floor divisions. -/
theorem dateToJdn_late (c : Cal) (y m d : Int) (hy : -4715 ≤ y) (h1 : 3 ≤ m) (_h2 : m ≤ 12) :
    dateToJdn c ⟨y, m, d⟩ = 365 * (y + 4716) + (y + 4716) / 4 + 306001 * (m + 1) / 10000 + d
      + gregOffset c ⟨y, m, d⟩ - 1524 := by
  have hm : ¬ m < 3 := by omega
  simp only [dateToJdn, adjust, hm, if_false]
  rw [Int.tdiv_eq_ediv_of_nonneg (by omega), Int.tdiv_eq_ediv_of_nonneg (by omega)]
  omega

theorem dateToJdn_early (c : Cal) (y m d : Int) (hy : -4715 ≤ y) (h1 : 1 ≤ m) (h2 : m ≤ 2) :
    dateToJdn c ⟨y, m, d⟩ = 365 * (y - 1 + 4716) + (y - 1 + 4716) / 4 + 306001 * (m + 12 + 1) / 10000 + d
      + gregOffset c ⟨y - 1, m + 12, d⟩ - 1524 := by
  have hm : m < 3 := by omega
  simp only [dateToJdn, adjust, hm, if_true]
  rw [Int.tdiv_eq_ediv_of_nonneg (by omega), Int.tdiv_eq_ediv_of_nonneg (by omega)]
  omega

/-- `dayAfter` stays within the calendar. -/
theorem dayAfter_valid (s : System) (d : Date) (hv : Valid s d) : Valid s (dayAfter s d) := by
  obtain ⟨y, m, dd⟩ := d
  obtain ⟨h1, h2, h3, h4⟩ := hv
  simp only at h1 h2 h3 h4
  unfold dayAfter
  simp only
  have hpos : ∀ y' m', 1 ≤ monthLength s y' m' := by
    intro y' m'; unfold monthLength; split_ifs <;> omega
  split_ifs with ha hb
  · exact ⟨h1, h2, by simp only; omega, by simp only; omega⟩
  · exact ⟨by simp only; omega, by simp only; omega, by simp only; omega, hpos _ _⟩
  · exact ⟨by simp only; omega, by simp only; omega, by simp only; omega, hpos _ _⟩

theorem dayAfter_year (s : System) (d : Date) : d.year ≤ (dayAfter s d).year := by
  unfold dayAfter; split_ifs <;> simp

theorem step_julian (y m d : Int) (hv : Valid .julian ⟨y, m, d⟩) (hy : -4715 ≤ y) :
    dateToJdn .julian (dayAfter .julian ⟨y, m, d⟩) = dateToJdn .julian ⟨y, m, d⟩ + 1 := by
  obtain ⟨h1, h2, h3, h4⟩ := hv
  simp only at h1 h2 h3 h4
  by_cases hl : leap .julian y <;>
  rcases monthCases h1 h2 with rfl|rfl|rfl|rfl|rfl|rfl|rfl|rfl|rfl|rfl|rfl|rfl <;>
    simp only [monthLength, hl, dayAfter, if_true, if_false] at h4 ⊢ <;> norm_num at h4 ⊢ <;>
    split_ifs <;> simp only [leap] at hl <;>
    simp (disch := omega) only [dateToJdn_late, dateToJdn_early, gregOffset] at * <;>
    norm_num at * <;> omega

theorem step_gregorian (y m d : Int) (hv : Valid .gregorian ⟨y, m, d⟩) (hy : -4715 ≤ y) :
    dateToJdn .gregorian (dayAfter .gregorian ⟨y, m, d⟩)
      = dateToJdn .gregorian ⟨y, m, d⟩ + 1 := by
  obtain ⟨h1, h2, h3, h4⟩ := hv
  simp only at h1 h2 h3 h4
  by_cases hl : leap .gregorian y <;>
  rcases monthCases h1 h2 with rfl|rfl|rfl|rfl|rfl|rfl|rfl|rfl|rfl|rfl|rfl|rfl <;>
    simp only [monthLength, hl, dayAfter, if_true, if_false] at h4 ⊢ <;> norm_num at h4 ⊢ <;>
    split_ifs <;> simp only [leap] at hl <;>
    simp (disch := omega) only [dateToJdn_late, dateToJdn_early, gregOffset] at * <;>
    norm_num at * <;> omega

/-- C31.  In each calendar, the day after a date has the next Julian day number. -/
theorem dayAfter_succ (s : System) (d : Date) (hv : Valid s d) (hy : -4715 ≤ d.year) :
    dateToJdn s.flag (dayAfter s d) = dateToJdn s.flag d + 1 := by
  obtain ⟨y, m, dd⟩ := d
  cases s
  · exact step_gregorian y m dd hv hy
  · exact step_julian y m dd hv hy

/-- Iterating `dayAfter`. -/
theorem iterate_spec (s : System) (d : Date) (hv : Valid s d) (hy : -4715 ≤ d.year) (n : ℕ) :
    Valid s ((dayAfter s)^[n] d) ∧ d.year ≤ ((dayAfter s)^[n] d).year ∧
      dateToJdn s.flag ((dayAfter s)^[n] d) = dateToJdn s.flag d + n := by
  induction n with
  | zero => exact ⟨hv, le_refl _, by simp⟩
  | succ n ih =>
    rw [Function.iterate_succ_apply']
    obtain ⟨a, b, c⟩ := ih
    refine ⟨dayAfter_valid s _ a, b.trans (dayAfter_year s _), ?_⟩
    rw [dayAfter_succ s _ a (by omega), c]
    push_cast; ring

/-- C31, counting form.  The n-th day after 1 January 4713 BC (Julian), and the n-th day after
24 November 4714 BC (Gregorian), has Julian day number n: `calendar_to_jd` counts days exactly. -/
theorem counts_days (n : ℕ) :
    dateToJdn .julian ((dayAfter .julian)^[n] ⟨-4712, 1, 1⟩) = n ∧
    dateToJdn .gregorian ((dayAfter .gregorian)^[n] ⟨-4713, 11, 24⟩) = n := by
  constructor
  · have h := (iterate_spec .julian ⟨-4712, 1, 1⟩ (by decide) (by decide) n).2.2
    have h0 : dateToJdn .julian ⟨-4712, 1, 1⟩ = 0 := by decide
    simp only [System.flag] at h
    rw [h, h0]; simp
  · have h := (iterate_spec .gregorian ⟨-4713, 11, 24⟩ (by decide) (by decide) n).2.2
    have h0 : dateToJdn .gregorian ⟨-4713, 11, 24⟩ = 0 := by decide
    simp only [System.flag] at h
    rw [h, h0]; simp

theorem lt_of_before_julian (y m d y' m' d' : Int) (hv : Valid .julian ⟨y, m, d⟩)
    (hv' : Valid .julian ⟨y', m', d'⟩) (hy : -4715 ≤ y) (h : Before ⟨y, m, d⟩ ⟨y', m', d'⟩) :
    dateToJdn .julian ⟨y, m, d⟩ < dateToJdn .julian ⟨y', m', d'⟩ := by
  obtain ⟨h1, h2, h3, h4⟩ := hv
  obtain ⟨k1, k2, k3, k4⟩ := hv'
  simp only [Before] at *
  have hy' : -4715 ≤ y' := by omega
  rcases monthCases h1 h2 with rfl|rfl|rfl|rfl|rfl|rfl|rfl|rfl|rfl|rfl|rfl|rfl <;>
    simp only [monthLength, leap] at h4 <;> norm_num at h4 <;>
    (rcases lt_or_ge m' 3 with hm | hm) <;>
    simp (disch := omega) only [dateToJdn_late, dateToJdn_early, gregOffset] at * <;>
    norm_num at * <;> omega

theorem lt_of_before_gregorian (y m d y' m' d' : Int) (hv : Valid .gregorian ⟨y, m, d⟩)
    (hv' : Valid .gregorian ⟨y', m', d'⟩) (hy : -4715 ≤ y) (h : Before ⟨y, m, d⟩ ⟨y', m', d'⟩) :
    dateToJdn .gregorian ⟨y, m, d⟩ < dateToJdn .gregorian ⟨y', m', d'⟩ := by
  obtain ⟨h1, h2, h3, h4⟩ := hv
  obtain ⟨k1, k2, k3, k4⟩ := hv'
  simp only [Before] at *
  have hy' : -4715 ≤ y' := by omega
  rcases monthCases h1 h2 with rfl|rfl|rfl|rfl|rfl|rfl|rfl|rfl|rfl|rfl|rfl|rfl <;>
    simp only [monthLength, leap] at h4 <;> norm_num at h4 <;>
    (rcases lt_or_ge m' 3 with hm | hm) <;>
    simp (disch := omega) only [dateToJdn_late, dateToJdn_early, gregOffset] at * <;>
    norm_num at * <;> omega

/-- C31, order form: a later date of the same calendar has a larger Julian day number. -/
theorem lt_of_before (s : System) (a b : Date) (ha : Valid s a) (hb : Valid s b)
    (hy : -4715 ≤ a.year) (h : Before a b) : dateToJdn s.flag a < dateToJdn s.flag b := by
  obtain ⟨y, m, d⟩ := a
  obtain ⟨y', m', d'⟩ := b
  cases s
  · exact lt_of_before_gregorian y m d y' m' d' ha hb hy h
  · exact lt_of_before_julian y m d y' m' d' ha hb hy h

theorem before_trichotomy (a b : Date) : Before a b ∨ a = b ∨ Before b a := by
  obtain ⟨y, m, d⟩ := a
  obtain ⟨y', m', d'⟩ := b
  simp only [Before, Date.mk.injEq]
  omega

theorem before_iff_lt (s : System) (a b : Date) (ha : Valid s a) (hb : Valid s b)
    (hy : -4715 ≤ a.year) (hy' : -4715 ≤ b.year) :
    Before a b ↔ dateToJdn s.flag a < dateToJdn s.flag b := by
  constructor
  · exact lt_of_before s a b ha hb hy
  · intro h
    rcases before_trichotomy a b with h' | rfl | h'
    · exact h'
    · exact absurd h (lt_irrefl _)
    · exact absurd h (not_lt.2 (le_of_lt (lt_of_before s b a hb ha hy' h')))

theorem dateToJdn_inj (s : System) (a b : Date) (ha : Valid s a) (hb : Valid s b)
    (hy : -4715 ≤ a.year) (hy' : -4715 ≤ b.year)
    (h : dateToJdn s.flag a = dateToJdn s.flag b) : a = b := by
  rcases before_trichotomy a b with h' | h' | h'
  · have := lt_of_before s a b ha hb hy h'; omega
  · exact h'
  · have := lt_of_before s b a hb ha hy' h'; omega

/-- Every valid date from a given valid start on is reached by counting days. -/
theorem reached (s : System) (a b : Date) (ha : Valid s a) (hb : Valid s b)
    (hy : -4715 ≤ a.year) (h : ¬ Before b a) : ∃ n : ℕ, b = (dayAfter s)^[n] a := by
  have hyb : -4715 ≤ b.year := by unfold Before at h; omega
  have hle : dateToJdn s.flag a ≤ dateToJdn s.flag b := by
    rw [before_iff_lt s b a hb ha hyb hy] at h; omega
  refine ⟨(dateToJdn s.flag b - dateToJdn s.flag a).toNat, ?_⟩
  obtain ⟨h1, h2, h3⟩ := iterate_spec s a ha hy (dateToJdn s.flag b - dateToJdn s.flag a).toNat
  refine dateToJdn_inj s _ _ hb h1 hyb (by omega) ?_
  rw [h3]; omega

/-! ## Back from the day count -/

/-- Decoding a day count that is `Y` (March-based) years, `M` months, `d` days. -/
theorem decode (Y M d j : Int) (hY : -4716 ≤ Y) (hM : 3 ≤ M) (hM' : M ≤ 14) (hd : 1 ≤ d)
    (hd' : d ≤ 31) (hd30 : (M = 4 ∨ M = 6 ∨ M = 9 ∨ M = 11) → d ≤ 30)
    (hfeb : M = 14 → d ≤ 29 ∧ ((Y + 1) % 4 ≠ 0 → d ≤ 28))
    (hj : j = 365 * (Y + 4716) + (Y + 4716) / 4 + 306001 * (M + 1) / 10000 + d - 1524) :
    jdnToDate .julian j = if M ≤ 12 then ⟨Y, M, d⟩ else ⟨Y + 1, M - 12, d⟩ := by
  have hb : j + 1524 = 365 * (Y + 4716) + (Y + 4716) / 4 + 306001 * (M + 1) / 10000 + d := by
    omega
  have hc : Int.tdiv (20 * (j + 1524) - 2442) 7305 = Y + 4716 := by
    rw [hb, Int.tdiv_eq_ediv_of_nonneg (by omega)]
    have hM2 : M = 3 ∨ M = 4 ∨ M = 5 ∨ M = 6 ∨ M = 7 ∨ M = 8 ∨ M = 9 ∨ M = 10 ∨ M = 11 ∨ M = 12 ∨
      M = 13 ∨ M = 14 := by omega
    have hr : (Y + 4716) % 4 = 0 ∨ (Y + 4716) % 4 = 1 ∨ (Y + 4716) % 4 = 2 ∨ (Y + 4716) % 4 = 3 := by
      omega
    have hq : 4 * ((Y + 4716) / 4) + (Y + 4716) % 4 = Y + 4716 := by omega
    generalize (Y + 4716) / 4 = q at *
    rcases hM2 with rfl|rfl|rfl|rfl|rfl|rfl|rfl|rfl|rfl|rfl|rfl|rfl <;>
      norm_num at * <;> omega
  have hd4 : Int.tdiv (1461 * (Y + 4716)) 4 = 365 * (Y + 4716) + (Y + 4716) / 4 := by
    rw [Int.tdiv_eq_ediv_of_nonneg (by omega)]; omega
  have he : Int.tdiv (10000 * (306001 * (M + 1) / 10000 + d)) 306001 = M + 1 := by
    rw [Int.tdiv_eq_ediv_of_nonneg (by omega)]
    have hM2 : M = 3 ∨ M = 4 ∨ M = 5 ∨ M = 6 ∨ M = 7 ∨ M = 8 ∨ M = 9 ∨ M = 10 ∨ M = 11 ∨ M = 12 ∨
      M = 13 ∨ M = 14 := by omega
    rcases hM2 with rfl|rfl|rfl|rfl|rfl|rfl|rfl|rfl|rfl|rfl|rfl|rfl <;>
      norm_num at * <;> omega
  have hx : j + 1524 - (365 * (Y + 4716) + (Y + 4716) / 4) = 306001 * (M + 1) / 10000 + d := by
    omega
  unfold jdnToDate shiftFor
  simp only [hc, hd4, hx, he]
  rw [Int.tdiv_eq_ediv_of_nonneg (by omega : 0 ≤ 306001 * (M + 1))]
  by_cases h12 : M ≤ 12
  · have h14 : M + 1 < 14 := by omega
    have h2 : M + 1 - 1 > 2 := by omega
    simp only [h14, h12, if_true, h2]
    congr 1 <;> omega
  · have h14 : ¬ M + 1 < 14 := by omega
    have h2 : ¬ M + 1 - 13 > 2 := by omega
    simp only [h14, h12, if_false, h2]
    congr 1 <;> omega

theorem roundtrip_julian (y m d : Int) (hv : Valid .julian ⟨y, m, d⟩) (hy : -4715 ≤ y) :
    jdnToDate .julian (dateToJdn .julian ⟨y, m, d⟩) = ⟨y, m, d⟩ := by
  obtain ⟨h1, h2, h3, h4⟩ := hv
  simp only [monthLength, leap] at h1 h2 h3 h4
  by_cases hm : m ≤ 2
  · rw [decode (y - 1) (m + 12) d _ (by omega) (by omega) (by omega) (by omega) (by split_ifs at h4 <;> omega)
      (by omega) (by intro h; have : m = 2 := by omega
                     subst this; simp only [if_true] at h4; split_ifs at h4 <;> omega)
      (by rw [dateToJdn_early _ _ _ _ hy h1 hm]; simp only [gregOffset]; omega)]
    rw [if_neg (by omega)]
    congr 1 <;> omega
  · rw [decode y m d _ (by omega) (by omega) (by omega) (by omega) (by split_ifs at h4 <;> omega)
      (by intro h; rw [if_neg (by omega), if_pos h] at h4; exact h4) (by omega)
      (by rw [dateToJdn_late _ _ _ _ hy (by omega) h2]; simp only [gregOffset]; omega)]
    rw [if_pos (by omega)]

/-- The March-based century that the Gregorian rule is applied to. -/
def marchCentury (d : Date) : Int := (if d.month ≤ 2 then d.year - 1 else d.year) / 100

theorem gregShift_eq (Y p j : Int) (hp : 0 ≤ p) (hp' : p ≤ 365)
    (hleap : p = 365 → (Y + 1) % 4 = 0 ∧ ((Y + 1) % 100 ≠ 0 ∨ (Y + 1) % 400 = 0))
    (hj : j = 365 * (Y + 4716) + (Y + 4716) / 4 + 123 + p - 1524) :
    gregShift (j + (2 - Y / 100 + Y / 100 / 4))
      = if 3 ≤ Y / 100 ∨ (Y / 100) % 4 = 3 then j else j + 1 := by
  unfold gregShift
  simp only
  obtain ⟨C, hC⟩ : ∃ C, C = Y / 100 := ⟨_, rfl⟩
  obtain ⟨r, hr⟩ : ∃ r, r = Y % 100 := ⟨_, rfl⟩
  have hY : Y = 100 * C + r := by omega
  have hr0 : 0 ≤ r := by omega
  have hr1 : r < 100 := by omega
  rw [← hC]
  clear hC hr
  subst hY
  have h4 : (100 * C + r + 4716) / 4 = 25 * C + 1179 + r / 4 := by omega
  rw [h4] at hj
  clear h4
  obtain ⟨q, s, hq, hs0, hs1⟩ : ∃ q s, C = 4 * q + s ∧ 0 ≤ s ∧ s ≤ 3 :=
    ⟨C / 4, C % 4, by omega, by omega, by omega⟩
  have hC4 : C / 4 = q := by omega
  have hCm : C % 4 = s := by omega
  rw [hC4, hCm]
  obtain ⟨N, hN⟩ : ∃ N, N = 4 * (j + (2 - C + q)) - 7468865 := ⟨_, rfl⟩
  rw [← hN]
  obtain ⟨u, v, hu, hv0, hv1⟩ : ∃ u v, r = 4 * u + v ∧ 0 ≤ v ∧ v ≤ 3 :=
    ⟨r / 4, r % 4, by omega, by omega, by omega⟩
  have hr4 : r / 4 = u := by omega
  rw [hr4] at hj
  have hlp : p = 365 → v = 3 ∧ (r = 99 → s = 3) := by
    intro h
    have := hleap h
    omega
  clear hleap hC4 hCm hr4
  have hNval : N = 146097 * (C - 4) + (1461 * u * 4 + 1460 * v + 4 * p) + 3 - s := by
    subst hu hq; omega
  -- floor value of alpha
  have hlo : 146097 * (C - 4) ≤ N := by omega
  have hhi : N < 146097 * (C - 3) := by omega
  have hex3 : N = 146097 * (C - 4) → s = 3 := by omega
  have hpc : 0 ≤ N → 4 ≤ C ∨ s = 3 := by omega
  clear hNval hlp hv0 hv1 hr0 hr1 hp hp' hj hN
  clear hu
  by_cases hpos : 0 ≤ N
  · have ha : Int.tdiv N 146097 = C - 4 := by
      rw [Int.tdiv_eq_ediv_of_nonneg hpos]
      omega
    have hd : (C - 4) / 4 = q - 1 := by omega
    rw [ha, hd]
    rw [if_pos (by omega)]
    omega
  · have hC3 : C ≤ 3 := by omega
    -- truncation towards zero
    have ht : Int.tdiv N 146097 = -((-N) / 146097) := by
      have : N = -(-N) := by ring
      conv_lhs => rw [this, Int.neg_tdiv, Int.tdiv_eq_ediv_of_nonneg (by omega)]
    rw [ht]
    by_cases hex : N = 146097 * (C - 4)
    · have h : (-N) / 146097 = 4 - C := by omega
      have h' : (-(4 - C)) / 4 = q - 1 := by omega
      rw [h, h', if_pos (by omega)]
      omega
    · have h : (-N) / 146097 = 3 - C := by omega
      have h' : (-(3 - C)) / 4 = (if s = 3 then q else q - 1) := by split_ifs <;> omega
      rw [h, h']
      split_ifs <;> omega

theorem valid_julian_of_gregorian (d : Date) (h : Valid .gregorian d) : Valid .julian d := by
  obtain ⟨h1, h2, h3, h4⟩ := h
  refine ⟨h1, h2, h3, h4.trans ?_⟩
  unfold monthLength leap
  split_ifs <;> omega

/-- The Julian day counts from -1095 on are exactly those of the Julian dates from 1 January -4715. -/
theorem julian_surj (n : Int) (hn : -1095 ≤ n) :
    ∃ d, Valid .julian d ∧ -4715 ≤ d.year ∧ dateToJdn .julian d = n := by
  obtain ⟨h1, h2, h3⟩ := iterate_spec .julian ⟨-4715, 1, 1⟩ (by decide) (by decide) (n + 1095).toNat
  refine ⟨_, h1, h2, ?_⟩
  simp only [System.flag] at h3
  rw [h3]
  have h0 : dateToJdn .julian ⟨-4715, 1, 1⟩ = -1095 := by decide
  rw [h0]; omega

/-- What a Gregorian date comes back as. -/
theorem gregorian_back (y m d : Int) (hv : Valid .gregorian ⟨y, m, d⟩) (hy : -4715 ≤ y) :
    jdnToDate .gregorian (dateToJdn .gregorian ⟨y, m, d⟩) =
      if 3 ≤ marchCentury ⟨y, m, d⟩ ∨ marchCentury ⟨y, m, d⟩ % 4 = 3 then ⟨y, m, d⟩
      else dayAfter .julian ⟨y, m, d⟩ := by
  have hvj := valid_julian_of_gregorian _ hv
  have hkey : gregShift (dateToJdn .gregorian ⟨y, m, d⟩) =
      if 3 ≤ marchCentury ⟨y, m, d⟩ ∨ marchCentury ⟨y, m, d⟩ % 4 = 3
      then dateToJdn .julian ⟨y, m, d⟩ else dateToJdn .julian ⟨y, m, d⟩ + 1 := by
    obtain ⟨h1, h2, h3, h4⟩ := hv
    simp only [monthLength] at h1 h2 h3 h4
    by_cases hm : m ≤ 2
    · have e1 := dateToJdn_early .gregorian y m d hy h1 hm
      have e2 := dateToJdn_early .julian y m d hy h1 hm
      simp only [gregOffset] at e1 e2
      have e3 : dateToJdn .gregorian ⟨y, m, d⟩
          = dateToJdn .julian ⟨y, m, d⟩ + (2 - (y - 1) / 100 + (y - 1) / 100 / 4) := by
        rw [e1, e2]; ring
      rw [e3]
      simp only [marchCentury, hm, if_true]
      refine gregShift_eq (y - 1) (306001 * (m + 12 + 1) / 10000 + d - 123) _ (by omega) ?_ ?_
        (by rw [e2]; ring)
      · rcases (by omega : m = 1 ∨ m = 2) with rfl | rfl <;> norm_num at * <;>
          (try split_ifs at h4) <;> omega
      · rcases (by omega : m = 1 ∨ m = 2) with rfl | rfl
        · norm_num at *; intro h; omega
        · norm_num at *
          intro h
          split_ifs at h4 with hl
          · simpa [leap] using hl
          · omega
    · have e1 := dateToJdn_late .gregorian y m d hy (by omega) h2
      have e2 := dateToJdn_late .julian y m d hy (by omega) h2
      simp only [gregOffset] at e1 e2
      have e3 : dateToJdn .gregorian ⟨y, m, d⟩
          = dateToJdn .julian ⟨y, m, d⟩ + (2 - y / 100 + y / 100 / 4) := by
        rw [e1, e2]; ring
      rw [e3]
      simp only [marchCentury, hm, if_false]
      refine gregShift_eq y (306001 * (m + 1) / 10000 + d - 123) _ (by omega) ?_ ?_
        (by rw [e2]; ring)
      · rw [if_neg (by omega)] at h4
        split_ifs at h4 <;> omega
      · rw [if_neg (by omega)] at h4
        intro h
        exfalso
        split_ifs at h4 <;> omega
  have hun : ∀ n, jdnToDate .gregorian n = jdnToDate .julian (gregShift n) := fun n => rfl
  rw [hun, hkey]
  split_ifs
  · exact roundtrip_julian y m d hvj hy
  · rw [← step_julian y m d hvj hy]
    have h' := dayAfter_valid .julian _ hvj
    have hy' := dayAfter_year .julian ⟨y, m, d⟩
    exact roundtrip_julian _ _ _ h' (le_trans hy hy')

theorem dayAfter_ne (s : System) (d : Date) : dayAfter s d ≠ d := by
  obtain ⟨y, m, dd⟩ := d
  unfold dayAfter
  split_ifs <;> simp <;> omega

/-- C30 (Julian calendar).  Every Julian-calendar date comes back unchanged. -/
theorem date_roundtrip_julian (d : Date) (hv : Valid .julian d) (hy : -4712 ≤ d.year) :
    jdnToDate .julian (dateToJdn .julian d) = d := by
  obtain ⟨y, m, dd⟩ := d
  exact roundtrip_julian y m dd hv (by simp only at hy; omega)

/-- C30 (Gregorian calendar, partial): every Gregorian date from 1 March 300 on comes back
unchanged.  The full statement (from -4712 on) is false: see `date_roundtrip_gregorian_iff`. -/
theorem date_roundtrip_gregorian (d : Date) (hv : Valid .gregorian d)
    (h : ¬ Before d ⟨300, 3, 1⟩) : jdnToDate .gregorian (dateToJdn .gregorian d) = d := by
  obtain ⟨y, m, dd⟩ := d
  obtain ⟨h1, h2, h3, h4⟩ := id hv
  simp only [Before] at h h1 h2 h3 h4
  rw [gregorian_back y m dd hv (by omega), if_pos]
  left
  unfold marchCentury
  simp only
  split_ifs <;> omega

/-- C30 (Gregorian calendar, exact).  A Gregorian date comes back unchanged exactly if it is on or
after 1 March 300 or lies in one of the 100-year spans starting 1 March of a year 400k-100;
otherwise it comes back as (what the Julian calendar calls) the following day. -/
theorem date_roundtrip_gregorian_iff (d : Date) (hv : Valid .gregorian d) (hy : -4712 ≤ d.year) :
    (jdnToDate .gregorian (dateToJdn .gregorian d) = d ↔
      3 ≤ marchCentury d ∨ marchCentury d % 4 = 3) ∧
    (¬ (3 ≤ marchCentury d ∨ marchCentury d % 4 = 3) →
      jdnToDate .gregorian (dateToJdn .gregorian d) = dayAfter .julian d) := by
  obtain ⟨y, m, dd⟩ := d
  rw [gregorian_back y m dd hv (by simp only at hy; omega)]
  refine ⟨?_, fun h => by rw [if_neg h]⟩
  split_ifs with h
  · simp [h]
  · simp [h, dayAfter_ne]

/-- C30 refuted for early Gregorian dates: 1 January of year 1 comes back as 2 January, and
28 February 100 comes back as 29 February 100, a date that does not exist. -/
theorem early_gregorian_wrong :
    Valid .gregorian ⟨1, 1, 1⟩ ∧
    jdnToDate .gregorian (dateToJdn .gregorian ⟨1, 1, 1⟩) = ⟨1, 1, 2⟩ ∧
    Valid .gregorian ⟨100, 2, 28⟩ ∧
    jdnToDate .gregorian (dateToJdn .gregorian ⟨100, 2, 28⟩) = ⟨100, 2, 29⟩ ∧
    ¬ Valid .gregorian ⟨100, 2, 29⟩ := by decide

/-- C30, other direction (Julian): every day number from 0 on is turned into a valid date, and that
date has this day number. -/
theorem jdn_roundtrip_julian (n : Int) (hn : 0 ≤ n) :
    Valid .julian (jdnToDate .julian n) ∧ dateToJdn .julian (jdnToDate .julian n) = n := by
  obtain ⟨d, h1, h2, h3⟩ := julian_surj n (by omega)
  have h := roundtrip_julian d.year d.month d.day h1 h2
  have hn' : jdnToDate .julian n = d := by rw [← h3]; exact h
  rw [hn']
  exact ⟨h1, h3⟩

/-- C30, other direction (Gregorian): day numbers from 1 March 300 on. -/
theorem jdn_roundtrip_gregorian (n : Int) (hn : 1830692 ≤ n) :
    Valid .gregorian (jdnToDate .gregorian n) ∧ dateToJdn .gregorian (jdnToDate .gregorian n) = n ∧
      ¬ Before (jdnToDate .gregorian n) ⟨300, 3, 1⟩ := by
  obtain ⟨h1, h2, h3⟩ := iterate_spec .gregorian ⟨300, 3, 1⟩ (by decide) (by decide)
    (n - 1830692).toNat
  have h0 : dateToJdn .gregorian ⟨300, 3, 1⟩ = 1830692 := by decide
  simp only [System.flag] at h3
  rw [h0] at h3
  generalize (dayAfter System.gregorian)^[(n - 1830692).toNat] ⟨300, 3, 1⟩ = d at *
  have h3' : dateToJdn .gregorian d = n := by omega
  have hnb : ¬ Before d ⟨300, 3, 1⟩ := by
    rw [before_iff_lt .gregorian d ⟨300, 3, 1⟩ h1 (by decide) (by simp only at h2; omega) (by decide)]
    simp only [System.flag]
    rw [h3', h0]; omega
  have hd : jdnToDate .gregorian n = d := by
    rw [← h3']; exact date_roundtrip_gregorian d h1 hnb
  rw [hd]
  exact ⟨h1, h3', hnb⟩

/-! ## The automatic calendar (C32) -/

/-- C32, reading Julian dates: day numbers before that of 15 October 1582 are shown in the Julian
calendar, and later ones in the Gregorian calendar; the day before 15 October 1582 is 4 October. -/
theorem auto_from_jd (n : Int) (hn : 0 ≤ n) :
    (n < dateToJdn .gregorian ⟨1582, 10, 15⟩ →
      Valid .julian (jdnToDate .auto n) ∧ dateToJdn .julian (jdnToDate .auto n) = n ∧
      Before (jdnToDate .auto n) ⟨1582, 10, 5⟩) ∧
    (dateToJdn .gregorian ⟨1582, 10, 15⟩ ≤ n →
      Valid .gregorian (jdnToDate .auto n) ∧ dateToJdn .gregorian (jdnToDate .auto n) = n ∧
      ¬ Before (jdnToDate .auto n) ⟨1582, 10, 15⟩) := by
  have h0 : dateToJdn .gregorian ⟨1582, 10, 15⟩ = 2299161 := by decide
  rw [h0]
  constructor
  · intro h
    have he : jdnToDate .auto n = jdnToDate .julian n := by
      unfold jdnToDate shiftFor
      simp only [show ¬ n ≥ 2299161 by omega, if_false]
    rw [he]
    obtain ⟨a, b⟩ := jdn_roundtrip_julian n hn
    obtain ⟨d, h1, h2, h3⟩ := julian_surj n (by omega)
    have hd : jdnToDate .julian n = d := by
      rw [← h3]; exact roundtrip_julian d.year d.month d.day h1 h2
    refine ⟨a, b, ?_⟩
    rw [hd, before_iff_lt .julian d ⟨1582, 10, 5⟩ h1 (by decide) h2 (by decide)]
    simp only [System.flag]
    have : dateToJdn .julian ⟨1582, 10, 5⟩ = 2299161 := by decide
    omega
  · intro h
    have he : jdnToDate .auto n = jdnToDate .gregorian n := by
      unfold jdnToDate shiftFor
      simp only [show n ≥ 2299161 by omega, if_true]
    rw [he]
    obtain ⟨a, b, c⟩ := jdn_roundtrip_gregorian n (by omega)
    refine ⟨a, b, ?_⟩
    have hy : -4715 ≤ (jdnToDate .gregorian n).year := by
      simp only [Before] at c; omega
    rw [before_iff_lt .gregorian _ ⟨1582, 10, 15⟩ a (by decide) hy (by decide)]
    simp only [System.flag]
    rw [b, h0]; omega

/-- C32, making Julian dates (partial): with the automatic calendar a date before 15 October 1582 is
read as Julian.  The other half is false: see `auto_to_jd_iff`. -/
theorem auto_to_jd (d : Date) (h1 : 1 ≤ d.month) (h2 : d.month ≤ 12)
    (h : Before d ⟨1582, 10, 15⟩) : dateToJdn .auto d = dateToJdn .julian d := by
  obtain ⟨y, m, dd⟩ := d
  simp only [Before] at *
  have : ¬ ((adjust ⟨y, m, dd⟩).year > 1582 ∧ (adjust ⟨y, m, dd⟩).month > 10
      ∧ (adjust ⟨y, m, dd⟩).day > 4) := by
    unfold adjust; simp only; split_ifs <;> simp only <;> omega
  unfold dateToJdn gregOffset
  simp only [this, if_false]

/-- C32 exactly: a date from 15 October 1582 on is read as Gregorian by the automatic calendar
exactly if it falls on the 5th or later of November, December, January or February, not before
November 1583. -/
theorem auto_to_jd_iff (d : Date) (hv : Valid .gregorian d) (h : ¬ Before d ⟨1582, 10, 15⟩) :
    (dateToJdn .auto d = dateToJdn .gregorian d ↔
      5 ≤ d.day ∧ (d.month ≤ 2 ∨ 11 ≤ d.month) ∧ ¬ Before d ⟨1583, 11, 1⟩) := by
  obtain ⟨y, m, dd⟩ := d
  obtain ⟨h1, h2, h3, h4⟩ := hv
  simp only [Before] at *
  have key : dateToJdn .auto ⟨y, m, dd⟩ - dateToJdn .gregorian ⟨y, m, dd⟩
      = gregOffset .auto (adjust ⟨y, m, dd⟩) - gregOffset .gregorian (adjust ⟨y, m, dd⟩) := by
    unfold dateToJdn; simp only; ring
  have hiff : dateToJdn .auto ⟨y, m, dd⟩ = dateToJdn .gregorian ⟨y, m, dd⟩ ↔
      gregOffset .auto (adjust ⟨y, m, dd⟩) = gregOffset .gregorian (adjust ⟨y, m, dd⟩) := by omega
  rw [hiff]
  unfold gregOffset adjust
  simp only
  by_cases hm : m < 3
  · simp only [hm, if_true]
    split_ifs <;> omega
  · simp only [hm, if_false]
    split_ifs <;> omega

/-- C32 refuted: 4 July 2000 (Gregorian JDN 2451730) is read as the Julian 4 July 2000, 13 days
later, and does not survive the round trip through the automatic calendar. -/
theorem auto_to_jd_wrong :
    dateToJdn .gregorian ⟨2000, 7, 4⟩ = 2451730 ∧ dateToJdn .auto ⟨2000, 7, 4⟩ = 2451743 ∧
    jdnToDate .auto (dateToJdn .auto ⟨2000, 7, 4⟩) = ⟨2000, 7, 17⟩ := by decide

/-! ## Examples -/

/-- 29 February 2000 exists in both calendars, 29 February 1900 only in the Julian one. -/
example : Valid .gregorian ⟨2000, 2, 29⟩ ∧ Valid .julian ⟨1900, 2, 29⟩ ∧
    ¬ Valid .gregorian ⟨1900, 2, 29⟩ := by decide
example : dayAfter .gregorian ⟨1999, 12, 31⟩ = ⟨2000, 1, 1⟩ := by decide
example : dateToJdn .gregorian ⟨2000, 1, 1⟩ = 2451545 := by decide
example : ¬ Before ⟨2000, 1, 1⟩ ⟨300, 3, 1⟩ := by decide
example : jdnToDate .gregorian 2451545 = ⟨2000, 1, 1⟩ := by decide
example : jdnToDate .auto 2299160 = ⟨1582, 10, 4⟩ ∧ jdnToDate .auto 2299161 = ⟨1582, 10, 15⟩ := by
  decide

end Verif.Calendar

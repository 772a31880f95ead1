import Verif.CalendarProps
import Mathlib.Tactic.Positivity
import Mathlib.Algebra.Order.Ring.Abs

/-!
# Time of day through Julian dates (C57)
-/

namespace Verif.Calendar

/-! ## Specification -/

/-- A time of day on a whole second. -/
def WholeSecond (t : Time) : Prop :=
  0 ≤ t.hour ∧ t.hour < 24 ∧ 0 ≤ t.minute ∧ t.minute < 60 ∧ 0 ≤ t.second ∧ t.second < 60 ∧
    t.micro = 0

instance (t : Time) : Decidable (WholeSecond t) := by unfold WholeSecond; infer_instance

/-- Seconds since midnight. -/
def secs (t : Time) : Int := 3600 * t.hour + 60 * t.minute + t.second

/-- The exact Julian date of a time on the day with day number `n`. -/
def exactJd (n : Int) (t : Time) : ℚ := n - 1/2 + (secs t : ℚ) / 86400

/-! ## Arithmetic of the final splitting -/

theorem split_secs (t : Time) (h : WholeSecond t) :
    (⟨(secs t / 60 / 60) % 24, (secs t / 60 - 60 * (secs t / 60 / 60)) % 60,
      (secs t - 60 * (secs t / 60)) % 60, 0⟩ : Time) = t := by
  obtain ⟨h1, h2, h3, h4, h5, h6, h7⟩ := h
  obtain ⟨a, b, c, d⟩ := t
  simp only [secs] at *
  have e1 : (3600 * a + 60 * b + c) / 60 = 60 * a + b := by omega
  have e2 : (60 * a + b) / 60 = a := by omega
  rw [e1, e2]
  congr 1 <;> omega

theorem secs_range (t : Time) (h : WholeSecond t) : 0 ≤ secs t ∧ secs t < 86400 := by
  obtain ⟨h1, h2, h3, h4, h5, h6, h7⟩ := h
  unfold secs; omega

/-- The `rounding=1000000` branch, given the rounded sum. -/
theorem default_branch (rnd : ℚ → ℚ) (c : Cal) (jd : ℚ) (n : Int) (t : Time)
    (ht : WholeSecond t)
    (hlo : (n : ℚ) + (secs t : ℚ) / 86400 ≤ rnd (jd + (1/2 + (1000000 : ℚ) / 86400000000)))
    (hhi : rnd (jd + (1/2 + (1000000 : ℚ) / 86400000000)) < n + (secs t + 1 : ℚ) / 86400) :
    jdToCalendar rnd c 1000000 jd = some (jdnToDate c n, t) := by
  obtain ⟨hs0, hs1⟩ := secs_range t ht
  have hs0' : (0 : ℚ) ≤ secs t := by exact_mod_cast hs0
  have hs1' : (secs t : ℚ) + 1 ≤ 86400 := by exact_mod_cast hs1
  unfold jdToCalendar
  rw [if_neg (by norm_num), if_neg (by norm_num : ¬ ((1000000 : Int) ≤ 0)), if_pos rfl]
  simp only [Int.cast_ofNat]
  generalize rnd (jd + (1/2 + (1000000 : ℚ) / 86400000000)) = x at *
  have hz : ⌊x⌋ = n := by
    rw [Int.floor_eq_iff]
    constructor
    · have : (0 : ℚ) ≤ (secs t : ℚ) / 86400 := by positivity
      linarith
    · have : ((secs t : ℚ) + 1) / 86400 ≤ 1 := by rw [div_le_one (by norm_num)]; exact hs1'
      linarith
  rw [hz]
  have hsec : ⌊(x - n) * 86400⌋ = secs t := by
    rw [Int.floor_eq_iff]
    constructor
    · have : (secs t : ℚ) / 86400 * 86400 = secs t := by field_simp
      nlinarith
    · have : ((secs t : ℚ) + 1) / 86400 * 86400 = secs t + 1 := by field_simp
      nlinarith
  rw [hsec, split_secs t ht]

/-- The fine-rounding branch, given the rounded sum. -/
theorem fine_branch (rnd : ℚ → ℚ) (c : Cal) (r : Int) (jd : ℚ) (n : Int) (t : Time)
    (ht : WholeSecond t) (hr0 : 0 < r) (hr1 : r < 1000000)
    (hlo : (n : ℚ) + (secs t : ℚ) / 86400 ≤ rnd (jd + (1/2 + (r : ℚ) / 86400000000)))
    (hhi : rnd (jd + (1/2 + (r : ℚ) / 86400000000)) < n + (secs t : ℚ) / 86400
      + (min (2 * r) 1000000 : ℤ) / 86400000000) :
    jdToCalendar rnd c r jd = some (jdnToDate c n, t) := by
  obtain ⟨hs0, hs1⟩ := secs_range t ht
  have hs0' : (0 : ℚ) ≤ secs t := by exact_mod_cast hs0
  have hs1' : (secs t : ℚ) + 1 ≤ 86400 := by exact_mod_cast hs1
  unfold jdToCalendar
  rw [if_neg (by omega), if_neg (by omega : ¬ (r ≤ 0)), if_neg (by omega)]
  generalize rnd (jd + (1/2 + (r : ℚ) / 86400000000)) = x at *
  have hm1 : ((min (2 * r) 1000000 : ℤ) : ℚ) ≤ 1000000 := by exact_mod_cast min_le_right _ _
  have hm2 : ((min (2 * r) 1000000 : ℤ) : ℚ) ≤ 2 * r := by exact_mod_cast min_le_left _ _
  generalize ((min (2 * r) 1000000 : ℤ) : ℚ) = M at *
  have hz : ⌊x⌋ = n := by
    rw [Int.floor_eq_iff]
    constructor
    · have : (0 : ℚ) ≤ (secs t : ℚ) / 86400 := by positivity
      linarith
    · have h1 : M / 86400000000 ≤ 1 / 86400 := by
        rw [div_le_div_iff₀ (by norm_num) (by norm_num)]; linarith
      have h2 : ((secs t : ℚ) + 1) / 86400 ≤ 1 := by rw [div_le_one (by norm_num)]; exact hs1'
      have h3 : ((secs t : ℚ) + 1) / 86400 = (secs t : ℚ) / 86400 + 1 / 86400 := by ring
      linarith
  simp only [hz]
  obtain ⟨ms, hms⟩ : ∃ ms, ms = ⌊(x - n) * 86400000000⌋ := ⟨_, rfl⟩
  rw [← hms]
  have hb1 : secs t * 1000000 ≤ ms := by
    rw [hms, Int.le_floor]
    push_cast
    have : (secs t : ℚ) / 86400 * 86400000000 = secs t * 1000000 := by ring
    nlinarith
  have hb2 : ((ms : ℤ) : ℚ) < secs t * 1000000 + M := by
    have hf : ((ms : ℤ) : ℚ) ≤ (x - n) * 86400000000 := by rw [hms]; exact Int.floor_le _
    have h1 : (secs t : ℚ) / 86400 * 86400000000 = secs t * 1000000 := by ring
    have h2 : M / 86400000000 * 86400000000 = M := by field_simp
    nlinarith
  have hb3 : ms < secs t * 1000000 + 1000000 := by
    have : ((ms : ℤ) : ℚ) < ((secs t * 1000000 + 1000000 : ℤ) : ℚ) := by push_cast; linarith
    exact_mod_cast this
  have hb4 : ms < secs t * 1000000 + 2 * r := by
    have : ((ms : ℤ) : ℚ) < ((secs t * 1000000 + 2 * r : ℤ) : ℚ) := by push_cast; linarith
    exact_mod_cast this
  have hdiv : ms / 1000000 = secs t := by omega
  rw [hdiv]
  have hlt : ms - secs t * 1000000 < 2 * r := by omega
  have e : (if r > 0 then (if ms - secs t * 1000000 < 2 * r then secs t * 1000000 + r else ms) - r
      else ms) = secs t * 1000000 := by
    rw [if_pos hr0, if_pos hlt]; ring
  rw [e]
  have e2 : secs t * 1000000 / 1000000 = secs t := by omega
  have e3 : secs t * 1000000 - 1000000 * secs t = 0 := by ring
  rw [e2, e3, split_secs t ht]

/-! ## Exact arithmetic -/

theorem calendarToJd_exact (c : Cal) (d : Date) (t : Time) :
    calendarToJd id c d t = exactJd (dateToJdn c d) t := by
  unfold calendarToJd exactJd secs
  simp only [id]
  push_cast
  ring

/-- C57, exact arithmetic, no rounding: the time of day comes back. -/
theorem time_roundtrip_exact_norounding (c : Cal) (d : Date) (t : Time) (r : Int)
    (ht : WholeSecond t) (hr : r ≤ 0) :
    jdToCalendar id c r (calendarToJd id c d t) = some (jdnToDate c (dateToJdn c d), t) := by
  obtain ⟨hs0, hs1⟩ := secs_range t ht
  have hs0' : (0 : ℚ) ≤ secs t := by exact_mod_cast hs0
  have hs1' : (secs t : ℚ) < 86400 := by exact_mod_cast hs1
  rw [calendarToJd_exact]
  unfold jdToCalendar exactJd
  rw [if_neg (by omega), if_pos hr, if_neg (by omega)]
  have hx : id ((dateToJdn c d : ℚ) - 1/2 + (secs t : ℚ) / 86400 + 1/2)
      = dateToJdn c d + (secs t : ℚ) / 86400 := by simp only [id]; ring
  rw [hx]
  have hz : ⌊(dateToJdn c d : ℚ) + (secs t : ℚ) / 86400⌋ = dateToJdn c d := by
    rw [Int.floor_eq_iff]
    constructor
    · have : (0 : ℚ) ≤ (secs t : ℚ) / 86400 := by positivity
      linarith
    · have : (secs t : ℚ) / 86400 < 1 := by rw [div_lt_one (by norm_num)]; exact hs1'
      linarith
  simp only [hz]
  have hms : ⌊((dateToJdn c d : ℚ) + (secs t : ℚ) / 86400 - dateToJdn c d) * 86400000000⌋
      = secs t * 1000000 := by
    have : ((dateToJdn c d : ℚ) + (secs t : ℚ) / 86400 - dateToJdn c d) * 86400000000
        = ((secs t * 1000000 : ℤ) : ℚ) := by push_cast; ring
    rw [this, Int.floor_intCast]
  rw [hms]
  have e : ¬ r > 0 := by omega
  simp only [e, if_false]
  have e2 : secs t * 1000000 / 1000000 = secs t := by omega
  have e3 : secs t * 1000000 - 1000000 * secs t = 0 := by ring
  rw [e2, e3, split_secs t ht]

/-- C57, exact arithmetic, `0 < rounding < 1000000`: the time of day comes back. -/
theorem time_roundtrip_exact_fine (c : Cal) (d : Date) (t : Time) (r : Int)
    (ht : WholeSecond t) (hr0 : 0 < r) (hr1 : r < 1000000) :
    jdToCalendar id c r (calendarToJd id c d t) = some (jdnToDate c (dateToJdn c d), t) := by
  have hr0' : (0 : ℚ) < r := by exact_mod_cast hr0
  rw [calendarToJd_exact]
  have hx : id (exactJd (dateToJdn c d) t + (1/2 + (r : ℚ) / 86400000000))
      = dateToJdn c d + (secs t : ℚ) / 86400 + (r : ℚ) / 86400000000 := by
    simp only [id, exactJd]; ring
  refine fine_branch id c r _ (dateToJdn c d) t ht hr0 hr1 ?_ ?_
  · rw [hx]
    have : (0 : ℚ) < (r : ℚ) / 86400000000 := by positivity
    linarith
  · rw [hx]
    have hm : (r : ℚ) < ((min (2 * r) 1000000 : ℤ) : ℚ) := by
      have : r < min (2 * r) 1000000 := by omega
      exact_mod_cast this
    have := div_lt_div_of_pos_right hm (by norm_num : (0 : ℚ) < 86400000000)
    linarith

/-- C57 refuted for the default `rounding=1000000` in exact arithmetic: the time that comes back is
one second late (23:59:59 becomes the next day's midnight). -/
theorem time_default_exact_late (c : Cal) (d : Date) (t t' : Time)
    (ht : WholeSecond t) (ht' : WholeSecond t') :
    (secs t' = secs t + 1 →
      jdToCalendar id c 1000000 (calendarToJd id c d t)
        = some (jdnToDate c (dateToJdn c d), t')) ∧
    (secs t = 86399 → secs t' = 0 →
      jdToCalendar id c 1000000 (calendarToJd id c d t)
        = some (jdnToDate c (dateToJdn c d + 1), t')) := by
  rw [calendarToJd_exact]
  have hx : id (exactJd (dateToJdn c d) t + (1/2 + (1000000 : ℚ) / 86400000000))
      = dateToJdn c d + ((secs t : ℚ) + 1) / 86400 := by
    simp only [id, exactJd]; ring
  constructor
  · intro h
    have h' : (secs t' : ℚ) = secs t + 1 := by exact_mod_cast h
    refine default_branch id c _ (dateToJdn c d) t' ht' ?_ ?_
    · rw [hx, h']
    · rw [hx, h']
      have : ((secs t : ℚ) + 1) / 86400 < ((secs t : ℚ) + 1 + 1) / 86400 := by
        apply div_lt_div_of_pos_right <;> linarith
      linarith
  · intro h h0
    have h' : (secs t : ℚ) = 86399 := by exact_mod_cast h
    refine default_branch id c _ (dateToJdn c d + 1) t' ht' ?_ ?_
    · rw [hx, h', h0]; push_cast; norm_num
    · rw [hx, h', h0]; push_cast; norm_num

/-- The rounding argument is rejected exactly above one second. -/
theorem rounding_rejected_iff (rnd : ℚ → ℚ) (c : Cal) (r : Int) (jd : ℚ) :
    jdToCalendar rnd c r jd = none ↔ 1000000 < r := by
  unfold jdToCalendar
  split_ifs <;> simp <;> omega

/-! ## Double precision -/

theorem roundTick_err (x : ℚ) : |roundTick x - x| ≤ 1 / 4294967296 := by
  unfold roundTick
  have h := abs_sub_round (x * 2147483648)
  have e : ((round (x * 2147483648) : ℤ) : ℚ) / 2147483648 - x
      = -(x * 2147483648 - (round (x * 2147483648) : ℤ)) / 2147483648 := by field_simp; ring
  rw [e, abs_div, abs_neg, abs_of_pos (by norm_num : (0 : ℚ) < 2147483648),
    div_le_div_iff₀ (by norm_num) (by norm_num)]
  linarith

theorem calendarToJd_near (rnd : ℚ → ℚ) (hrnd : ∀ x, |rnd x - x| ≤ 1 / 4294967296)
    (c : Cal) (d : Date) (t : Time) :
    |calendarToJd rnd c d t - exactJd (dateToJdn c d) t| ≤ 3 / 4294967296 := by
  unfold calendarToJd
  set a := (dateToJdn c d : ℚ) - 1/2 + t.hour / 24 with ha
  have h1 := abs_le.1 (hrnd a)
  have h2 := abs_le.1 (hrnd (rnd a + t.minute / 1440))
  have h3 := abs_le.1 (hrnd (rnd (rnd a + t.minute / 1440) + t.second / 86400))
  have he : exactJd (dateToJdn c d) t = a + t.minute / 1440 + t.second / 86400 := by
    unfold exactJd secs; rw [ha]; push_cast; ring
  rw [he, abs_le]
  constructor <;> linarith [h1.1, h1.2, h2.1, h2.2, h3.1, h3.2]

/-- C57 in double precision: whenever every sum is rounded with an error of at most 2^-32 day (half
the spacing of doubles in the years 1029-6770), every whole second of every day comes back exactly
for any `rounding` from 81 to 999918 microseconds. -/
theorem time_roundtrip_double (rnd : ℚ → ℚ) (hrnd : ∀ x, |rnd x - x| ≤ 1 / 4294967296)
    (c : Cal) (d : Date) (t : Time) (r : Int) (ht : WholeSecond t) (hr0 : 81 ≤ r)
    (hr1 : r ≤ 999918) :
    jdToCalendar rnd c r (calendarToJd rnd c d t) = some (jdnToDate c (dateToJdn c d), t) := by
  have hr0' : (81 : ℚ) ≤ r := by exact_mod_cast hr0
  have hr1' : (r : ℚ) ≤ 999918 := by exact_mod_cast hr1
  have h1 := abs_le.1 (calendarToJd_near rnd hrnd c d t)
  have h2 := abs_le.1 (hrnd (calendarToJd rnd c d t + (1/2 + (r : ℚ) / 86400000000)))
  generalize calendarToJd rnd c d t = jd at *
  unfold exactJd at h1
  refine fine_branch rnd c r _ (dateToJdn c d) t ht (by omega) (by omega) ?_ ?_
  · have : (81 : ℚ) / 86400000000 ≤ (r : ℚ) / 86400000000 := by
      apply div_le_div_of_nonneg_right hr0'; norm_num
    have : (4 : ℚ) / 4294967296 ≤ 81 / 86400000000 := by norm_num
    linarith [h1.1, h2.1]
  · have hm : (r : ℚ) + 81 ≤ ((min (2 * r) 1000000 : ℤ) : ℚ) := by
      have : r + 81 ≤ min (2 * r) 1000000 := by omega
      exact_mod_cast this
    have h3 : ((r : ℚ) + 81) / 86400000000 ≤ ((min (2 * r) 1000000 : ℤ) : ℚ) / 86400000000 := by
      apply div_le_div_of_nonneg_right hm; norm_num
    have h4 : ((r : ℚ) + 81) / 86400000000 = (r : ℚ) / 86400000000 + 81 / 86400000000 := by ring
    have : (4 : ℚ) / 4294967296 < 81 / 86400000000 := by norm_num
    linarith [h1.2, h2.2]

/-- A value already on the grid plus one second moves by exactly 24855 grid steps (a second is
24855.13 steps). -/
theorem roundTick_second (k : Int) :
    roundTick ((k : ℚ) / 2147483648 + (1/2 + (1000000 : ℚ) / 86400000000))
      = ((k + 1073741824 + 24855 : ℤ) : ℚ) / 2147483648 := by
  unfold roundTick
  congr 2
  rw [round_eq, Int.floor_eq_iff]
  push_cast
  constructor
  · field_simp; norm_num
    linarith
  · field_simp; norm_num
    linarith

theorem roundTick_grid (x : ℚ) : ∃ k : Int, roundTick x = (k : ℚ) / 2147483648 := ⟨_, rfl⟩

/-- C57 for the default rounding in double precision, exactly: the time comes back one second late
precisely if the double exceeds the exact Julian date by at least 91/675 of a grid step
(about 5.4 microseconds), and is right otherwise. -/
theorem time_default_double_iff (c : Cal) (d : Date) (t : Time) (ht : WholeSecond t) :
    (calendarToJd roundTick c d t - exactJd (dateToJdn c d) t < 91 / 675 / 2147483648 →
      jdToCalendar roundTick c 1000000 (calendarToJd roundTick c d t)
        = some (jdnToDate c (dateToJdn c d), t)) ∧
    (91 / 675 / 2147483648 ≤ calendarToJd roundTick c d t - exactJd (dateToJdn c d) t →
      ∀ t', WholeSecond t' → secs t' = secs t + 1 →
      jdToCalendar roundTick c 1000000 (calendarToJd roundTick c d t)
        = some (jdnToDate c (dateToJdn c d), t')) := by
  have hn := abs_le.1 (calendarToJd_near roundTick roundTick_err c d t)
  obtain ⟨k, hk⟩ : ∃ k : Int, calendarToJd roundTick c d t = (k : ℚ) / 2147483648 :=
    roundTick_grid _
  rw [hk] at hn ⊢
  have hr := roundTick_second k
  unfold exactJd at hn ⊢
  have hsum : ((k + 1073741824 + 24855 : ℤ) : ℚ) / 2147483648
      = (k : ℚ) / 2147483648 + 1/2 + 24855 / 2147483648 := by push_cast; ring
  rw [hsum] at hr
  constructor
  · intro h
    refine default_branch roundTick c _ (dateToJdn c d) t ht ?_ ?_
    · rw [hr]
      have : (3 : ℚ) / 4294967296 ≤ 24855 / 2147483648 := by norm_num
      linarith [hn.1]
    · rw [hr]
      have e1 : ((secs t : ℚ) + 1) / 86400 = (secs t : ℚ) / 86400 + 1 / 86400 := by ring
      have e2 : (91 : ℚ) / 675 / 2147483648 + 24855 / 2147483648 = 1 / 86400 := by norm_num
      linarith
  · intro h t' ht' hs
    have hs' : (secs t' : ℚ) = secs t + 1 := by exact_mod_cast hs
    refine default_branch roundTick c _ (dateToJdn c d) t' ht' ?_ ?_
    · rw [hr, hs']
      have e1 : ((secs t : ℚ) + 1) / 86400 = (secs t : ℚ) / 86400 + 1 / 86400 := by ring
      have e2 : (91 : ℚ) / 675 / 2147483648 + 24855 / 2147483648 = 1 / 86400 := by norm_num
      linarith
    · rw [hr, hs']
      have e1 : ((secs t : ℚ) + 1 + 1) / 86400 = (secs t : ℚ) / 86400 + 2 / 86400 := by ring
      have : (3 : ℚ) / 4294967296 + 24855 / 2147483648 < 2 / 86400 := by norm_num
      linarith [hn.2]

/-- C57 refuted for the default rounding in double precision: on every day, 02:00:00 comes back as
02:00:01 (and noon comes back right). -/
theorem two_o_clock_late (c : Cal) (d : Date) :
    jdToCalendar roundTick c 1000000 (calendarToJd roundTick c d ⟨2, 0, 0, 0⟩)
      = some (jdnToDate c (dateToJdn c d), ⟨2, 0, 1, 0⟩) ∧
    jdToCalendar roundTick c 1000000 (calendarToJdNoon roundTick c d)
      = some (jdnToDate c (dateToJdn c d), ⟨12, 0, 0, 0⟩) := by
  have grid : ∀ k : Int, roundTick ((k : ℚ) / 2147483648) = (k : ℚ) / 2147483648 := by
    intro k
    unfold roundTick
    congr 2
    rw [div_mul_cancel₀ _ (by norm_num), round_intCast]
  constructor
  · refine (time_default_double_iff c d ⟨2, 0, 0, 0⟩ (by decide)).2 ?_ ⟨2, 0, 1, 0⟩ (by decide)
      (by decide)
    have h1 : roundTick ((dateToJdn c d : ℚ) - 1/2 + ((2 : ℤ) : ℚ) / 24)
        = ((dateToJdn c d * 2147483648 - 1073741824 + 178956971 : ℤ) : ℚ) / 2147483648 := by
      unfold roundTick
      congr 2
      rw [round_eq, Int.floor_eq_iff]
      push_cast
      constructor <;> linarith
    unfold calendarToJd
    simp only [Int.cast_zero, zero_div, add_zero]
    rw [h1, grid, grid]
    unfold exactJd secs
    push_cast
    norm_num
    linarith
  · refine (time_default_double_iff c d ⟨12, 0, 0, 0⟩ (by decide)).1 ?_
    have h1 : roundTick ((dateToJdn c d : ℚ) - 1/2 + ((12 : ℤ) : ℚ) / 24)
        = ((dateToJdn c d * 2147483648 : ℤ) : ℚ) / 2147483648 := by
      have : (dateToJdn c d : ℚ) - 1/2 + ((12 : ℤ) : ℚ) / 24
          = ((dateToJdn c d * 2147483648 : ℤ) : ℚ) / 2147483648 := by push_cast; ring
      rw [this, grid]
    unfold calendarToJd
    simp only [Int.cast_zero, zero_div, add_zero]
    rw [h1, grid, grid]
    unfold exactJd secs
    push_cast
    norm_num

/-- The microseconds of the calendar time never reach the Julian date. -/
theorem micro_ignored (rnd : ℚ → ℚ) (c : Cal) (d : Date) (h m s u u' : Int) :
    calendarToJd rnd c d ⟨h, m, s, u⟩ = calendarToJd rnd c d ⟨h, m, s, u'⟩ := rfl

/-- Hence a time with microseconds does not come back, even in exact arithmetic. -/
theorem micro_lost (c : Cal) (d : Date) :
    jdToCalendar id c 0 (calendarToJd id c d ⟨1, 2, 3, 500000⟩)
      = some (jdnToDate c (dateToJdn c d), ⟨1, 2, 3, 0⟩) := by
  rw [micro_ignored id c d 1 2 3 500000 0]
  exact time_roundtrip_exact_norounding c d ⟨1, 2, 3, 0⟩ 0 (by decide) (le_refl _)

/-- Without a time the Julian date is the Julian day number itself (noon). -/
theorem noon_is_jdn (c : Cal) (d : Date) : calendarToJdNoon id c d = dateToJdn c d := by
  unfold calendarToJdNoon
  rw [calendarToJd_exact]
  unfold exactJd secs
  push_cast
  ring

/-- A whole-hour time zone: the local time is read as the UTC time `tz` hours earlier, and a
modified Julian date is the Julian date minus 2400000.5. -/
theorem zone_spec (c : Cal) (mjd : Bool) (tz : Int) (d : Date) (t : Time) :
    calendarToJdZone id c mjd tz d t
      = calendarToJd id c d { t with hour := t.hour - tz } - (if mjd then 2400000.5 else 0) := by
  unfold calendarToJdZone
  rw [calendarToJd_exact, calendarToJd_exact]
  unfold exactJd secs
  by_cases h : (tz : ℚ) = 0
  · have : tz = 0 := by exact_mod_cast h
    subst this
    cases mjd <;> simp <;> norm_num
  · simp only [h, ne_eq, not_false_eq_true, if_true, id]
    cases mjd <;> simp <;> ring

/-- The hypotheses are met: 2010-03-04 05:06:07 in the Gregorian calendar, rounding 1 ms. -/
example : WholeSecond ⟨5, 6, 7, 0⟩ ∧ Valid .gregorian ⟨2010, 3, 4⟩ ∧
    dateToJdn .gregorian ⟨2010, 3, 4⟩ = 2455260 ∧ (81 : Int) ≤ 1000 := by decide

end Verif.Calendar

import Verif.CalendarTime

/-!
# Epochs and TAI-UTC (astropysics/obstools.py 465-690)

`jd_to_epoch`, `epoch_to_jd`, `delta_AT`, over the rationals (double rounding ignored except inside
the calendar conversion that `delta_AT` calls, which keeps its rounding parameter).
-/

namespace Verif.TimeScale

open Verif.Calendar

/-- obstools.py 502-508: the epoch of a (modified) Julian date. -/
def jdToEpoch (julian mjd : Bool) (jd : ℚ) : ℚ :=
  let jd := if mjd then jd + 2400000.5 else jd
  if julian then 2000 + (jd - 2451545) / 365.25
  else 1900 + (jd - 2415020.31352) / 365.242198781

/-- An epoch argument: a number, a string (its optional first letter, `true` for `'J'`, and the
decimal number that follows; printing and parsing of decimals is not modelled). -/
inductive EpochArg where
  | number (x : ℚ)
  | text (letter : Option Bool) (x : ℚ)

/-- obstools.py 554-572: the Julian date of an epoch. -/
def epochToJd (julian mjd : Bool) (a : EpochArg) : ℚ :=
  let (julian, epoch) := match a with
    | .number x => (julian, x)
    | .text (some b) x => (b, x)
    | .text none x => (julian, x)
  let res := if julian then (epoch - 2000) * 365.25 + 2451545
             else (epoch - 1900) * 365.242198781 + 2415020.31352
  if mjd then res - 2400000.5 else res

/-- obstools.py 562-564: an array of strings is converted element by element *without* the `mjd`
flag. -/
def epochsToJd (julian _mjd : Bool) (as : List EpochArg) : List ℚ :=
  as.map (epochToJd julian false)

/-- obstools.py 512-521, `asstring=True`: the letter and the number of the printed epoch. -/
def jdToEpochString (julian mjd : Bool) (jd : ℚ) : EpochArg :=
  .text (some julian) (jdToEpoch julian mjd jd)

/-! ## delta_AT -/

/-- One row of `__dat_changes`: year, month, TAI-UTC. -/
structure Change where
  year : Int
  month : Int
  delat : ℚ
deriving DecidableEq

/-- obstools.py 646-686, `__dat_changes`. -/
def changes : List Change := [
    ⟨1960,  1,  1.4178180⟩, ⟨1961,  1,  1.4228180⟩, ⟨1961,  8,  1.3728180⟩, ⟨1962,  1,  1.8458580⟩,
    ⟨1963, 11,  1.9458580⟩, ⟨1964,  1,  3.2401300⟩, ⟨1964,  4,  3.3401300⟩, ⟨1964,  9,  3.4401300⟩,
    ⟨1965,  1,  3.5401300⟩, ⟨1965,  3,  3.6401300⟩, ⟨1965,  7,  3.7401300⟩, ⟨1965,  9,  3.8401300⟩,
    ⟨1966,  1,  4.3131700⟩, ⟨1968,  2,  4.2131700⟩, ⟨1972,  1, 10⟩, ⟨1972,  7, 11⟩, ⟨1973,  1, 12⟩,
    ⟨1974,  1, 13⟩, ⟨1975,  1, 14⟩, ⟨1976,  1, 15⟩, ⟨1977,  1, 16⟩, ⟨1978,  1, 17⟩, ⟨1979,  1, 18⟩,
    ⟨1980,  1, 19⟩, ⟨1981,  7, 20⟩, ⟨1982,  7, 21⟩, ⟨1983,  7, 22⟩, ⟨1985,  7, 23⟩, ⟨1988,  1, 24⟩,
    ⟨1990,  1, 25⟩, ⟨1991,  1, 26⟩, ⟨1992,  7, 27⟩, ⟨1993,  7, 28⟩, ⟨1994,  7, 29⟩, ⟨1996,  1, 30⟩,
    ⟨1997,  7, 31⟩, ⟨1999,  1, 32⟩, ⟨2006,  1, 33⟩, ⟨2009,  1, 34⟩]

/-- obstools.py 628-643, `__dat_drift`: reference MJD and rate (s/day). -/
def drift : List (ℚ × ℚ) := [
    (37300, 0.0012960), (37300, 0.0012960), (37300, 0.0012960), (37665, 0.0011232),
    (37665, 0.0011232), (38761, 0.0012960), (38761, 0.0012960), (38761, 0.0012960),
    (38761, 0.0012960), (38761, 0.0012960), (38761, 0.0012960), (38761, 0.0012960),
    (39126, 0.0025920), (39126, 0.0025920)]

/-- obstools.py 687: `__dat_m`. -/
def Change.months (e : Change) : Int := 12 * e.year + e.month

/-- obstools.py 607-611: the row used for month number `m`; `np.sum(__dat_m<m)-1`, at least 0. -/
def rowIndex (m : Int) : Nat := changes.countP (fun e => decide (e.months < m)) - 1

/-- obstools.py 616: `fd`, the fraction of the day of the calendar time. -/
def dayFraction (t : Time) : ℚ :=
  t.hour / 24 + t.minute / 24 / 60 + t.second / 24 / 3600 + t.micro / 24 / 3600000000

/-- obstools.py 576-622, `delta_AT(jdutc, usett)`.  `rnd` is the rounding of the calendar
conversion (see Calendar.lean).  Warnings, and the ValueError of `datetime` outside years 1-9999,
are not modelled. -/
def deltaAT (rnd : ℚ → ℚ) (jdutc : ℚ) (usett : Bool) : Option ℚ :=
  match jdToCalendar rnd .auto 1000000 jdutc with
  | none => none
  | some (d, t) =>
    let i := rowIndex (12 * d.year + d.month)
    match changes[i]? with
    | none => none
    | some e =>
      let delat := match drift[i]? with
        | none => e.delat
        | some (ref, rate) => e.delat + (jdutc - 2400000.5 + dayFraction t - ref) * rate
      some (if usett then delat - 32.184 else delat)

/-! ## Epoch properties (C33) -/

/-- C33: converting a Julian date to an epoch and back, with the same flags, is the identity. -/
theorem epoch_roundtrip (julian mjd : Bool) (jd : ℚ) :
    epochToJd julian mjd (.number (jdToEpoch julian mjd jd)) = jd := by
  cases julian <;> cases mjd <;> simp [epochToJd, jdToEpoch] <;> ring

/-- C33: and the other way round. -/
theorem jd_roundtrip (julian mjd : Bool) (x : ℚ) :
    jdToEpoch julian mjd (epochToJd julian mjd (.number x)) = x := by
  cases julian <;> cases mjd <;> simp [epochToJd, jdToEpoch] <;> ring

/-- C33: later dates have later epochs. -/
theorem epoch_strictMono (julian mjd : Bool) (a b : ℚ) (h : a < b) :
    jdToEpoch julian mjd a < jdToEpoch julian mjd b := by
  cases julian <;> cases mjd <;> simp [jdToEpoch] <;>
    (apply div_lt_div_of_pos_right <;> [linarith; norm_num])

/-- C33: a printed epoch carries its own kind: it is read back to the same date whatever `julian`
flag the reader passes. -/
theorem epoch_string_roundtrip (julian julian' mjd : Bool) (jd : ℚ) :
    epochToJd julian' mjd (jdToEpochString julian mjd jd) = jd := by
  have h := epoch_roundtrip julian mjd jd
  cases julian <;> simpa [epochToJd, jdToEpochString] using h

/-- C33, the standard anchors: J2000.0 is JD 2451545, B1950.0 is JD 2433282.42345905, B1900.0 is
JD 2415020.31352, and a Julian century is 36525 days. -/
theorem epoch_anchors :
    jdToEpoch true false 2451545 = 2000 ∧ jdToEpoch false false 2433282.42345905 = 1950 ∧
    jdToEpoch false false 2415020.31352 = 1900 ∧ jdToEpoch true true 51544.5 = 2000 ∧
    ∀ jd, jdToEpoch true false (jd + 36525) = jdToEpoch true false jd + 100 := by
  refine ⟨by norm_num [jdToEpoch], by norm_num [jdToEpoch], by norm_num [jdToEpoch],
    by norm_num [jdToEpoch], fun jd => ?_⟩
  simp [jdToEpoch]; ring

/-- C33 refuted for arrays of strings with `mjd=True`: the flag is dropped, so every element is
2400000.5 too large. -/
theorem epoch_strings_mjd_ignored (julian : Bool) (as : List EpochArg) :
    epochsToJd julian true as = (as.map (epochToJd julian true)).map (· + 2400000.5) := by
  unfold epochsToJd
  rw [List.map_map]
  apply List.map_congr_left
  intro a _
  simp [epochToJd]

/-- ... and without `mjd` arrays of strings agree with their elements. -/
theorem epoch_strings (julian : Bool) (as : List EpochArg) :
    epochsToJd julian false as = as.map (epochToJd julian false) := rfl

/-! ## TAI-UTC properties (C34) -/

/-- Specification: `e` is the row in force in month (y, m): the last change of the table that took
effect in that month or earlier. -/
def InForce (e : Change) (y m : Int) : Prop :=
  e ∈ changes ∧ (e.year < y ∨ e.year = y ∧ e.month ≤ m) ∧
    ∀ e' ∈ changes, (e'.year < y ∨ e'.year = y ∧ e'.month ≤ m) →
      (e'.year < e.year ∨ e'.year = e.year ∧ e'.month ≤ e.month)

theorem lt_countP_iff (l : List Change) (hl : l.Pairwise (fun a b => a.months < b.months)) (m : Int)
    (j : Nat) (hj : j < l.length) :
    l[j].months < m ↔ j < l.countP (fun e => decide (e.months < m)) := by
  induction l generalizing j with
  | nil => simp at hj
  | cons a l ih =>
    rw [List.pairwise_cons] at hl
    obtain ⟨h1, h2⟩ := hl
    by_cases ha : a.months < m
    · rw [List.countP_cons_of_pos (by simpa using ha)]
      cases j with
      | zero => simpa using ha
      | succ j =>
        simp only [List.getElem_cons_succ]
        rw [ih h2 j (by simpa using hj)]
        omega
    · have hz : l.countP (fun e => decide (e.months < m)) = 0 := by
        rw [List.countP_eq_zero]
        intro e he
        have := h1 e he
        simp; omega
      rw [List.countP_cons_of_neg (by simpa using ha), hz]
      cases j with
      | zero => simpa using ha
      | succ j =>
        have hj' : j < l.length := by simpa using hj
        have := h1 (l[j]'hj') (List.getElem_mem _)
        simp; omega

theorem changes_sorted : changes.Pairwise (fun a b => a.months < b.months) := by decide

theorem changes_months : ∀ e ∈ changes, 1 ≤ e.month ∧ e.month ≤ 12 := by decide

theorem changes_length : changes.length = 39 := rfl

/-- The row used is the last one that changed strictly *before* the month. -/
theorem row_spec (m : Int) (hm : 12 * 1960 + 1 < m) :
    ∃ (h : rowIndex m < changes.length), changes[rowIndex m].months < m ∧
      ∀ e ∈ changes, e.months < m → e.months ≤ changes[rowIndex m].months := by
  have h0 : 0 < changes.countP (fun e => decide (e.months < m)) := by
    rw [← lt_countP_iff changes changes_sorted m 0 (by rw [changes_length]; omega)]
    show (12 * 1960 + 1 : Int) < m
    exact hm
  have hle : changes.countP (fun e => decide (e.months < m)) ≤ changes.length := List.countP_le_length
  have hlt : rowIndex m < changes.length := by unfold rowIndex; omega
  refine ⟨hlt, ?_, ?_⟩
  · rw [lt_countP_iff changes changes_sorted m _ hlt]; unfold rowIndex; omega
  · intro e he hem
    obtain ⟨j, hj, rfl⟩ := List.getElem_of_mem he
    rw [lt_countP_iff changes changes_sorted m j hj] at hem
    rcases Nat.lt_or_ge j (rowIndex m) with h | h
    · exact le_of_lt (List.pairwise_iff_getElem.1 changes_sorted j _ hj hlt h)
    · have : j = rowIndex m := by unfold rowIndex at *; omega
      subst this; exact le_refl _

/-- The row used is a leap-second row (14 or later) exactly from February 1972 on. -/
theorem row_leap_iff (m : Int) : 14 ≤ rowIndex m ↔ 12 * 1972 + 1 < m := by
  have h := lt_countP_iff changes changes_sorted m 14 (by rw [changes_length]; omega)
  have h' : changes[14].months = 12 * 1972 + 1 := rfl
  rw [h'] at h
  rw [h]
  unfold rowIndex
  omega

theorem drift_none (i : Nat) : drift[i]? = none ↔ 14 ≤ i := by
  rw [List.getElem?_eq_none_iff]; rfl

theorem months_le_iff (e : Change) (y m : Int) (h1 : 1 ≤ e.month) (h2 : e.month ≤ 12)
    (hm1 : 1 ≤ m) (hm2 : m ≤ 12) :
    (e.year < y ∨ e.year = y ∧ e.month ≤ m) ↔ e.months ≤ 12 * y + m := by
  unfold Change.months; omega

/-- What `delta_AT` returns from February 1972 on: the value of the last row that changed strictly
before the month of the date. -/
theorem deltaAT_leap (rnd : ℚ → ℚ) (jd : ℚ) (d : Date) (t : Time)
    (hcal : jdToCalendar rnd .auto 1000000 jd = some (d, t))
    (hd : 12 * 1972 + 1 < 12 * d.year + d.month) :
    ∃ e ∈ changes, deltaAT rnd jd false = some e.delat ∧
      e.months < 12 * d.year + d.month ∧
      ∀ e' ∈ changes, e'.months < 12 * d.year + d.month → e'.months ≤ e.months := by
  obtain ⟨hlt, h1, h2⟩ := row_spec (12 * d.year + d.month) (by omega)
  refine ⟨_, List.getElem_mem hlt, ?_, h1, h2⟩
  unfold deltaAT
  rw [hcal]
  simp only
  rw [List.getElem?_eq_getElem hlt]
  have : drift[rowIndex (12 * d.year + d.month)]? = none := by
    rw [drift_none, row_leap_iff]; exact hd
  simp only [this]
  rfl

/-- C34 (partial): from February 1972 on, in a month in which no leap second takes effect,
`delta_AT` returns the value of the row in force.  In the months of change it does not: see
`deltaAT_change_month_wrong`. -/
theorem deltaAT_correct (rnd : ℚ → ℚ) (jd : ℚ) (d : Date) (t : Time)
    (hcal : jdToCalendar rnd .auto 1000000 jd = some (d, t)) (hm1 : 1 ≤ d.month) (hm2 : d.month ≤ 12)
    (hd : 1972 < d.year ∨ d.year = 1972 ∧ 2 ≤ d.month)
    (hno : ∀ e ∈ changes, ¬ (e.year = d.year ∧ e.month = d.month)) :
    ∃ e, InForce e d.year d.month ∧ deltaAT rnd jd false = some e.delat := by
  obtain ⟨e, he, hv, h1, h2⟩ := deltaAT_leap rnd jd d t hcal (by omega)
  refine ⟨e, ⟨he, ?_, ?_⟩, hv⟩
  · rw [months_le_iff e _ _ (changes_months e he).1 (changes_months e he).2 hm1 hm2]; omega
  · intro e' he' h'
    obtain ⟨a, b⟩ := changes_months e' he'
    obtain ⟨a', b'⟩ := changes_months e he
    rw [months_le_iff e' _ _ a b hm1 hm2] at h'
    rw [months_le_iff e' _ _ a b a' b']
    have hne := hno e' he'
    have : e'.months < 12 * d.year + d.month := by
      unfold Change.months at *; omega
    exact h2 e' he' this

theorem changes_delat_increasing :
    (changes.drop 14).Pairwise (fun a b => a.delat < b.delat) := by decide +kernel

theorem changes_delat_lt (e e' : Change) (he : e ∈ changes) (he' : e' ∈ changes)
    (h : 12 * 1972 + 1 ≤ e.months) (hlt : e.months < e'.months) : e.delat < e'.delat := by
  obtain ⟨i, hi, rfl⟩ := List.getElem_of_mem he
  obtain ⟨j, hj, rfl⟩ := List.getElem_of_mem he'
  have key : ∀ a b : Nat, (ha : a < changes.length) → (hb : b < changes.length) →
      changes[a].months < changes[b].months → a < b := by
    intro a b ha hb hab
    rcases Nat.lt_trichotomy a b with h | h | h
    · exact h
    · subst h; omega
    · have := List.pairwise_iff_getElem.1 changes_sorted b a hb ha h; omega
  have hij := key i j hi hj hlt
  have h14 : 14 ≤ i := by
    rcases Nat.lt_or_ge i 14 with h' | h'
    · have := List.pairwise_iff_getElem.1 changes_sorted i 14 hi (by rw [changes_length]; omega) h'
      have e14 : changes[14].months = 12 * 1972 + 1 := rfl
      omega
    · exact h'
  have hp := List.pairwise_iff_getElem.1 changes_delat_increasing (i - 14) (j - 14)
    (by rw [List.length_drop]; omega) (by rw [List.length_drop]; omega) (by omega)
  simp only [List.getElem_drop] at hp
  have e1 : 14 + (i - 14) = i := by omega
  have e2 : 14 + (j - 14) = j := by omega
  simpa only [e1, e2] using hp

/-- C34 refuted in every month of change after January 1972: `delta_AT` returns less than the row in
force (the previous row's value). -/
theorem deltaAT_change_month_wrong (rnd : ℚ → ℚ) (jd : ℚ) (d : Date) (t : Time)
    (hcal : jdToCalendar rnd .auto 1000000 jd = some (d, t))
    (hd : 1972 < d.year ∨ d.year = 1972 ∧ 2 ≤ d.month)
    (e : Change) (he : e ∈ changes) (hy : e.year = d.year) (hm : e.month = d.month) :
    InForce e d.year d.month ∧ ∃ v, deltaAT rnd jd false = some v ∧ v < e.delat := by
  obtain ⟨a, b⟩ := changes_months e he
  have hmm : e.months = 12 * d.year + d.month := by unfold Change.months; rw [hy, hm]
  constructor
  · refine ⟨he, Or.inr ⟨hy, hm.le⟩, ?_⟩
    intro e' _ h'
    rw [hy, hm]; exact h'
  · obtain ⟨e', he', hv, h1, h2⟩ := deltaAT_leap rnd jd d t hcal (by omega)
    refine ⟨_, hv, changes_delat_lt e' e he' he ?_ (by omega)⟩
    exact h2 ⟨1972, 1, 10⟩ (by decide) (by unfold Change.months; simp only; omega)

/-- C34: `delta_AT` never decreases from February 1972 on. -/
theorem deltaAT_mono (rnd : ℚ → ℚ) (jd jd' : ℚ) (d d' : Date) (t t' : Time)
    (hcal : jdToCalendar rnd .auto 1000000 jd = some (d, t))
    (hcal' : jdToCalendar rnd .auto 1000000 jd' = some (d', t'))
    (hd : 12 * 1972 + 1 < 12 * d.year + d.month)
    (hle : 12 * d.year + d.month ≤ 12 * d'.year + d'.month) :
    ∃ v v', deltaAT rnd jd false = some v ∧ deltaAT rnd jd' false = some v' ∧ v ≤ v' := by
  obtain ⟨e, he, hv, h1, h2⟩ := deltaAT_leap rnd jd d t hcal hd
  obtain ⟨e', he', hv', h1', h2'⟩ := deltaAT_leap rnd jd' d' t' hcal' (by omega)
  refine ⟨_, _, hv, hv', ?_⟩
  have hmm : e.months ≤ e'.months := h2' e he (by omega)
  rcases lt_or_eq_of_le hmm with h | h
  · refine le_of_lt (changes_delat_lt e e' he he' ?_ h)
    exact h2 ⟨1972, 1, 10⟩ (by decide) (by unfold Change.months; simp only; omega)
  · obtain ⟨i, hi, rfl⟩ := List.getElem_of_mem he
    obtain ⟨j, hj, rfl⟩ := List.getElem_of_mem he'
    have : i = j := by
      rcases Nat.lt_trichotomy i j with h' | h' | h'
      · have := List.pairwise_iff_getElem.1 changes_sorted i j hi hj h'; omega
      · exact h'
      · have := List.pairwise_iff_getElem.1 changes_sorted j i hj hi h'; omega
    subst this; exact le_refl _

/-- `usett=True` should give TT-UTC = (TAI-UTC) + 32.184; it gives (TAI-UTC) - 32.184, always. -/
theorem deltaTT_wrong (rnd : ℚ → ℚ) (jd v : ℚ) (h : deltaAT rnd jd false = some v) :
    deltaAT rnd jd true = some (v - 32.184) ∧ deltaAT rnd jd true ≠ some (v + 32.184) := by
  have key : deltaAT rnd jd true = (deltaAT rnd jd false).map (· - 32.184) := by
    unfold deltaAT
    cases jdToCalendar rnd .auto 1000000 jd with
    | none => rfl
    | some p =>
      obtain ⟨d, t⟩ := p
      simp only
      cases changes[rowIndex (12 * d.year + d.month)]? <;> simp
  rw [key, h]
  refine ⟨rfl, ?_⟩
  intro hc
  have h3 : v - 32.184 = v + 32.184 := Option.some.inj hc
  have : (32.184 : ℚ) > 0 := by norm_num
  linarith

/-- Before February 1972 the drift term counts the time of day twice: the result exceeds the SOFA
value `delat + (MJD - ref) * rate` of the row used (the last that changed before the month) by the day fraction times the rate. -/
theorem deltaAT_drift_double (rnd : ℚ → ℚ) (jd : ℚ) (d : Date) (t : Time)
    (hcal : jdToCalendar rnd .auto 1000000 jd = some (d, t))
    (hd : 12 * d.year + d.month ≤ 12 * 1972 + 1) :
    ∃ (i : Nat) (e : Change) (ref rate : ℚ), changes[i]? = some e ∧ drift[i]? = some (ref, rate) ∧
      (12 * 1960 + 1 < 12 * d.year + d.month → e.months < 12 * d.year + d.month ∧
        ∀ e' ∈ changes, e'.months < 12 * d.year + d.month → e'.months ≤ e.months) ∧
      deltaAT rnd jd false
        = some (e.delat + (jd - 2400000.5 - ref) * rate
            + ((t.hour * 3600 + t.minute * 60 + t.second : ℚ) / 86400 + t.micro / 86400000000) * rate) := by
  have hi : rowIndex (12 * d.year + d.month) < 14 := by
    have := row_leap_iff (12 * d.year + d.month); omega
  have hc : rowIndex (12 * d.year + d.month) < changes.length := by rw [changes_length]; omega
  have hdr : rowIndex (12 * d.year + d.month) < drift.length := by
    have : drift.length = 14 := rfl
    omega
  refine ⟨rowIndex (12 * d.year + d.month), _, (drift[rowIndex (12 * d.year + d.month)]).1,
    (drift[rowIndex (12 * d.year + d.month)]).2, List.getElem?_eq_getElem hc, List.getElem?_eq_getElem hdr, ?_, ?_⟩
  · intro h
    obtain ⟨_, h1, h2⟩ := row_spec _ h
    exact ⟨h1, h2⟩
  · unfold deltaAT
    rw [hcal]
    simp only
    rw [List.getElem?_eq_getElem hc, List.getElem?_eq_getElem hdr]
    simp [dayFraction]
    ring

/-- The table of leap seconds: from 1972 on the offset grows by exactly one second per row, starting at 10 s, and every
change is at a new year or on the first of July. -/
theorem leap_seconds_table (i : Nat) (e : Change) (h : changes[14 + i]? = some e) :
    e.delat = 10 + i ∧ (e.month = 1 ∨ e.month = 7) ∧ (i = 0 → e.year = 1972 ∧ e.month = 1) := by
  have hi : i < 25 := by
    by_contra hn
    rw [List.getElem?_eq_none (by rw [changes_length]; omega)] at h
    simp at h
  have key : ∀ k < 25, ∀ x, changes[14 + k]? = some x →
      x.delat = 10 + ((k : Nat) : ℚ) ∧ (x.month = 1 ∨ x.month = 7) ∧ (k = 0 → x.year = 1972 ∧ x.month = 1) := by
    decide +kernel
  exact key i hi e h

/-- The noon of a Gregorian date after the reform, in double precision, is shown as that date. -/
theorem noon_shown (d : Date) (hv : Valid .gregorian d) (h : ¬ Before d ⟨1582, 10, 15⟩) :
    jdToCalendar roundTick .auto 1000000 (calendarToJdNoon roundTick .gregorian d)
      = some (d, ⟨12, 0, 0, 0⟩) := by
  have hy : -4715 ≤ d.year := by simp only [Before] at h; omega
  have hj : (2299161 : Int) ≤ dateToJdn .gregorian d := by
    rw [before_iff_lt .gregorian d ⟨1582, 10, 15⟩ hv (by decide) hy (by decide)] at h
    have : dateToJdn .gregorian ⟨1582, 10, 15⟩ = 2299161 := by decide
    simp only [System.flag] at h
    omega
  have h300 : ¬ Before d ⟨300, 3, 1⟩ := by simp only [Before] at *; omega
  have hd : jdnToDate .auto (dateToJdn .gregorian d) = d := by
    have := date_roundtrip_gregorian d hv h300
    unfold jdnToDate shiftFor at *
    simpa [show dateToJdn .gregorian d ≥ 2299161 by omega] using this
  -- the Julian date does not depend on which calendar produced the day number
  have h2 : jdToCalendar roundTick .auto 1000000 (calendarToJdNoon roundTick .gregorian d)
      = some (jdnToDate .auto (dateToJdn .gregorian d), ⟨12, 0, 0, 0⟩) := by
    have hnoon : calendarToJdNoon roundTick .gregorian d = (dateToJdn .gregorian d : ℚ) := by
      have grid : ∀ k : Int, roundTick (k : ℚ) = (k : ℚ) := by
        intro k
        unfold roundTick
        have : (k : ℚ) * 2147483648 = ((k * 2147483648 : ℤ) : ℚ) := by push_cast; ring
        rw [this, round_intCast]; push_cast; field_simp
      have e : (dateToJdn .gregorian d : ℚ) - 1/2 + ((12 : ℤ) : ℚ) / 24
          = (dateToJdn .gregorian d : ℚ) := by push_cast; ring
      unfold calendarToJdNoon calendarToJd
      simp only [Int.cast_zero, zero_div, add_zero]
      rw [e, grid, grid, grid]
    rw [hnoon]
    have hsum := roundTick_second (dateToJdn .gregorian d * 2147483648)
    have hcast : ((dateToJdn .gregorian d * 2147483648 : ℤ) : ℚ) / 2147483648
        = (dateToJdn .gregorian d : ℚ) := by push_cast; field_simp
    rw [hcast] at hsum
    have hval : ((dateToJdn .gregorian d * 2147483648 + 1073741824 + 24855 : ℤ) : ℚ) / 2147483648
        = dateToJdn .gregorian d + 1/2 + 24855 / 2147483648 := by push_cast; ring
    rw [hval] at hsum
    have hs : (secs ⟨12, 0, 0, 0⟩ : ℚ) = 43200 := by norm_num [secs]
    refine default_branch roundTick .auto _ (dateToJdn .gregorian d) ⟨12, 0, 0, 0⟩ (by decide) ?_ ?_
    · rw [hsum, hs]
      have : (43200 : ℚ) / 86400 ≤ 1/2 + 24855 / 2147483648 := by norm_num
      linarith
    · rw [hsum, hs]
      have : 1/2 + 24855 / 2147483648 < ((43200 : ℚ) + 1) / 86400 := by norm_num
      linarith
  rw [h2, hd]

/-- End-to-end instance: at noon of 15 January 2009 `delta_AT` gives 33 s (the true value is 34), and
at noon of 15 February 2009 it gives 34 s. -/
theorem deltaAT_2009 :
    deltaAT roundTick (calendarToJdNoon roundTick .gregorian ⟨2009, 1, 15⟩) false = some 33 ∧
    deltaAT roundTick (calendarToJdNoon roundTick .gregorian ⟨2009, 2, 15⟩) false = some 34 := by
  constructor
  · unfold deltaAT
    rw [noon_shown ⟨2009, 1, 15⟩ (by decide) (by decide)]
    have : rowIndex (12 * 2009 + 1) = 37 := by decide
    simp only [this]
    simp [changes, drift]
  · unfold deltaAT
    rw [noon_shown ⟨2009, 2, 15⟩ (by decide) (by decide)]
    have : rowIndex (12 * 2009 + 2) = 38 := by decide
    simp only [this]
    simp [changes, drift]

end Verif.TimeScale

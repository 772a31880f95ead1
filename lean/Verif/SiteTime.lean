import Verif.SiteSky
import Mathlib.Analysis.Real.Pi.Bounds

/-!
# Sidereal time of a site and refraction (astropysics/obstools.py 794-911, 958-986, 1279-1346) (C102, C103)

Exact real arithmetic.  The Julian date of a civil date and time of the site (`calendar_to_jd`, see `Verif.Calendar`) and the Greenwich sidereal
time (`greenwich_sidereal_time`, see `Verif.CoordSky`) are functions the site comes with.
-/

namespace Verif.SiteTime

open Real Verif.CoordSky Verif.SiteHorizon Verif.SiteRise

/-- The parts of a site used here: longitude (degrees), offset of its zone (hours), the Julian date of a local civil time, Greenwich sidereal time
of a Julian date (second argument: apparent). -/
structure Place where
  long : ℝ
  off : ℝ
  lat : ℝ
  jdOf : DT → ℝ
  gst : ℝ → Bool → ℝ

/-- The positional arguments of `localSiderialTime`, obstools.py 862-888. -/
inductive TimeArg where
  | jd (x : ℝ)
  | datetime (t : DT)
  | date (d : ℤ)
  | timeAndDate (time : ℝ) (d : ℤ)
  | fields (d hr min : ℤ) (sec : ℝ)

/-- obstools.py 862-888 (arguments without a zone; the current date is the case `jd`). -/
noncomputable def Place.argJd (s : Place) : TimeArg → ℝ
  | .jd x => x
  | .datetime t => s.jdOf t
  | .date d => s.jdOf ⟨d, 0, 0, 0, 0⟩
  | .timeAndDate time d =>
    let hr := ⌊time⌋
    let min := ⌊60 * (time - hr)⌋
    let sec := ⌊60 * (60 * (time - hr) - min)⌋
    let msec := ⌊1000000 * (60 * (60 * (time - hr) - min) - sec)⌋
    s.jdOf ⟨d, hr, min, sec, msec⟩
  | .fields d hr min sec =>
    let msec := pyint (1000000 * (sec - ⌊sec⌋))
    s.jdOf ⟨d, hr, min, ⌊sec⌋, msec⟩

/-- `localSiderialTime(...)` in decimal hours, obstools.py 851-892. -/
noncomputable def Place.lst (s : Place) (a : TimeArg) (apparent : Bool) : ℝ := pymod (s.gst (s.argJd a) apparent + s.long / 15) 24

/-- The `returntype`. -/
inductive Form where
  | hours | string | time | other

/-- What is returned: hours; the three numbers put into the string; or the fields of a `datetime.time`. -/
inductive LstOut where
  | hours (x : ℝ)
  | string (hr min : ℤ) (sec : ℝ)
  | time (hr min sec us : ℤ)

/-- obstools.py 894-911. -/
noncomputable def Place.localSiderialTime (s : Place) (a : TimeArg) (apparent : Bool) (form : Form) : Option LstOut :=
  let lst := s.lst a apparent
  match form with
  | .hours => some (.hours lst)
  | .string =>
    let hr := pyint lst
    let min := 60 * (lst - hr)
    let sec := 60 * (min - pyint min)
    some (.string hr (pyint min) sec)
  | .time =>
    let hr := pyint lst
    let min := 60 * (lst - hr)
    let sec := 60 * (min - pyint min)
    let msec := pyint (1000000 * (sec - pyint sec))
    some (.time hr (pyint min) (pyint sec) msec)
  | .other => none

/-- The argument of `localTime`: hours with a date, or a `datetime` object. -/
inductive LstArg where
  | hours (x : ℝ) (d : ℤ)
  | datetime (t : DT)

/-- The sidereal time and the date used by `localTime`, obstools.py 953-965: for a `datetime` object `lsts` is replaced by `datetime.time()`, that is
midnight. -/
noncomputable def LstArg.read : LstArg → ℝ × ℤ
  | .hours x d => (x, d)
  | .datetime t => (0, t.day)

/-- The site as `Verif.SiteRise` sees it: `lst0 = self.localSiderialTime(date)`, obstools.py 973. -/
noncomputable def Place.site (s : Place) : Site := ⟨s.lat, fun d => s.lst (.date d) true, s.off⟩

/-- `localTime(lsts,date,apparent,utc=utc)` in decimal hours, obstools.py 913-986. -/
noncomputable def Place.localTime (s : Place) (a : LstArg) (_apparent : Bool) (utc : Bool) : ℝ := s.site.localTime a.read.1 a.read.2 utc

/-! ## C102 -/

/-- Local sidereal time lies in 0..24 hours and is the sidereal time of Greenwich plus an hour for each 15 degrees of longitude, modulo a day. -/
theorem lst_of_longitude (s : Place) (a : TimeArg) (apparent : Bool) :
    0 ≤ s.lst a apparent ∧ s.lst a apparent < 24 ∧
    ∃ k : ℤ, s.lst a apparent = s.gst (s.argJd a) apparent + s.long / 15 + 24 * k :=
  ⟨pymod_nonneg _ _ (by norm_num), pymod_lt _ _ (by norm_num), pymod_congr _ _⟩

/-- The forms of the argument agree: a date means its midnight, decimal hours mean the time cut to microseconds, seconds may have a fraction. -/
theorem forms_agree (s : Place) (apparent : Bool) :
    (∀ d, s.lst (.date d) apparent = s.lst (.datetime ⟨d, 0, 0, 0, 0⟩) apparent) ∧
    (∀ time d, ∃ t : DT, s.lst (.timeAndDate time d) apparent = s.lst (.datetime t) apparent ∧
      t.total = ⌊(24 * d + time) * 3600000000⌋ ∧ t.day = d ∧ (0 ≤ t.min ∧ t.min < 60) ∧ (0 ≤ t.sec ∧ t.sec < 60) ∧ 0 ≤ t.us ∧ t.us < 1000000) ∧
    (∀ d hr min sec, ∃ t : DT, s.lst (.fields d hr min sec) apparent = s.lst (.datetime t) apparent ∧
      t.total = ⌊((24 * d + hr) * 3600 + min * 60 + sec) * 1000000⌋) := by
  refine ⟨fun _ => rfl, fun time d => ?_, fun d hr min sec => ?_⟩
  · have e : hrToDateTime d time = ⟨d, ⌊time⌋, ⌊60 * (time - ⌊time⌋)⌋, ⌊60 * (60 * (time - ⌊time⌋) - ⌊60 * (time - ⌊time⌋)⌋)⌋,
        ⌊1000000 * (60 * (60 * (time - ⌊time⌋) - ⌊60 * (time - ⌊time⌋)⌋) - ⌊60 * (60 * (time - ⌊time⌋) - ⌊60 * (time - ⌊time⌋)⌋)⌋)⌋⟩ := by
      unfold hrToDateTime
      simp only [mul_comm (60 : ℝ), mul_comm (1000000 : ℝ)]
    have fr : ∀ (x : ℝ) (n : ℕ), 0 < n → 0 ≤ ⌊(n : ℝ) * (x - ⌊x⌋)⌋ ∧ ⌊(n : ℝ) * (x - ⌊x⌋)⌋ < n := fun x n hn => by
      have h0 := Int.floor_le x
      have h1 := Int.lt_floor_add_one x
      have hn' : (0 : ℝ) < n := by exact_mod_cast hn
      constructor
      · apply Int.floor_nonneg.2
        exact mul_nonneg hn'.le (by linarith)
      · rw [Int.floor_lt]
        push_cast
        nlinarith
    refine ⟨hrToDateTime d time, ?_, hrToDateTime_total d time, rfl, ?_, ?_, ?_⟩
    · rw [e]; rfl
    · rw [e]; exact_mod_cast fr time 60 (by norm_num)
    · rw [e]; exact_mod_cast fr (60 * (time - ⌊time⌋)) 60 (by norm_num)
    · rw [e]; exact_mod_cast fr (60 * (60 * (time - ⌊time⌋) - ⌊60 * (time - ⌊time⌋)⌋)) 1000000 (by norm_num)
  · refine ⟨⟨d, hr, min, ⌊sec⌋, pyint (1000000 * (sec - ⌊sec⌋))⟩, rfl, ?_⟩
    have h0 := Int.floor_le sec
    rw [pyint_nonneg _ (by linarith)]
    unfold DT.total
    simp only
    have : ((24 * (d : ℝ) + hr) * 3600 + min * 60 + sec) * 1000000 =
      1000000 * (sec - ⌊sec⌋) + ((((((d * 24 + hr) * 60 + min) * 60 + ⌊sec⌋) * 1000000 : ℤ)) : ℝ) := by push_cast; ring
    rw [this, Int.floor_add_intCast]
    ring

/-- The forms of the result agree: the fields of the time object are the hours cut to microseconds, those of the string are the hours exactly, with
minutes and seconds below 60. -/
theorem results_agree (s : Place) (a : TimeArg) (apparent : Bool) :
    s.localSiderialTime a apparent .hours = some (.hours (s.lst a apparent)) ∧
    (∃ hr min sec us, s.localSiderialTime a apparent .time = some (.time hr min sec us) ∧
      ((hr * 60 + min) * 60 + sec) * 1000000 + us = ⌊s.lst a apparent * 3600000000⌋ ∧ 0 ≤ hr ∧ hr < 24) ∧
    (∃ hr min sec, s.localSiderialTime a apparent .string = some (.string hr min sec) ∧
      (hr : ℝ) + min / 60 + sec / 3600 = s.lst a apparent ∧ 0 ≤ hr ∧ hr < 24 ∧ 0 ≤ min ∧ min < 60 ∧ 0 ≤ sec ∧ sec < 60) := by
  obtain ⟨t0, t1, _⟩ := lst_of_longitude s a apparent
  have f0 : (0 : ℝ) ≤ 60 * (s.lst a apparent - ⌊s.lst a apparent⌋) := by have := Int.floor_le (s.lst a apparent); linarith
  unfold Place.localSiderialTime
  simp only
  generalize s.lst a apparent = t at *
  have f1 : (0 : ℝ) ≤ 60 * (60 * (t - ⌊t⌋) - ⌊60 * (t - ⌊t⌋)⌋) := by have := Int.floor_le (60 * (t - ⌊t⌋)); linarith
  have f2 : (0 : ℝ) ≤ 1000000 * (60 * (60 * (t - ⌊t⌋) - ⌊60 * (t - ⌊t⌋)⌋) - ⌊60 * (60 * (t - ⌊t⌋) - ⌊60 * (t - ⌊t⌋)⌋)⌋) := by
    have := Int.floor_le (60 * (60 * (t - ⌊t⌋) - ⌊60 * (t - ⌊t⌋)⌋)); linarith
  have hh0 : 0 ≤ ⌊t⌋ := Int.floor_nonneg.2 t0
  have hh1 : ⌊t⌋ < 24 := Int.floor_lt.2 (by exact_mod_cast t1)
  refine ⟨trivial, ⟨_, _, _, _, rfl, ?_, ?_, ?_⟩, ⟨_, _, _, rfl, ?_, ?_, ?_, ?_, ?_, ?_, ?_⟩⟩
  · have := hrToDateTime_total 0 t
    unfold DT.total hrToDateTime at this
    simp only [Int.cast_zero, mul_zero, zero_add, zero_mul] at this
    rw [← this, pyint_nonneg t t0, pyint_nonneg _ f0, pyint_nonneg _ f1, pyint_nonneg _ f2]
    rw [mul_comm 60 (t - ⌊t⌋), mul_comm 60 ((t - ⌊t⌋) * 60 - ⌊(t - ⌊t⌋) * 60⌋), mul_comm (1000000 : ℝ)]
  · rw [pyint_nonneg t t0]; exact hh0
  · rw [pyint_nonneg t t0]; exact hh1
  · rw [pyint_nonneg t t0, pyint_nonneg _ f0]; ring
  · rw [pyint_nonneg t t0]; exact hh0
  · rw [pyint_nonneg t t0]; exact hh1
  · rw [pyint_nonneg t t0, pyint_nonneg _ f0]; exact Int.floor_nonneg.2 f0
  · rw [pyint_nonneg t t0, pyint_nonneg _ f0, Int.floor_lt]
    have := Int.lt_floor_add_one t
    push_cast; linarith
  · rw [pyint_nonneg t t0, pyint_nonneg _ f0]; exact f1
  · rw [pyint_nonneg t t0, pyint_nonneg _ f0]
    have := Int.lt_floor_add_one (60 * (t - ⌊t⌋))
    linarith

/-- Sidereal time to local time and back is exact if sidereal time runs uniformly, for apparent times. -/
theorem localTime_roundtrip (s : Place) (L0 : ℝ) (hu : Uniform s.site L0) (x : ℝ) (hx : 0 ≤ x ∧ x < 24) (d : ℤ) (apparent : Bool) :
    ∃ k : ℤ, L0 + rate * (24 * d + s.localTime (.hours x d) apparent false - s.off) = x + 24 * k :=
  (localTime_right s.site L0 hu x d).1

/-- The `apparent` argument of `localTime` has no effect: mean sidereal times are read as apparent ones. -/
theorem apparent_ignored (s : Place) (a : LstArg) (utc : Bool) : s.localTime a true utc = s.localTime a false utc := rfl

/-- A case: the mean sidereal time of midnight is not given back as midnight when mean and apparent time differ at all. -/
theorem apparent_counterexample (s : Place) (d : ℤ) (hne : s.lst (.date d) false ≠ s.lst (.date d) true) :
    s.localTime (.hours (s.lst (.date d) false) d) false false ≠ 0 ∧ s.localTime (.hours (s.lst (.date d) true) d) true false = 0 := by
  have hr := rate_pos
  obtain ⟨a0, a1, _⟩ := lst_of_longitude s (.date d) true
  obtain ⟨b0, b1, _⟩ := lst_of_longitude s (.date d) false
  unfold Place.localTime Site.localTime LstArg.read Place.site
  simp only [Bool.false_eq_true, if_false]
  constructor
  · rw [Ne, div_eq_zero_iff, not_or]
    refine ⟨fun h => ?_, hr.ne'⟩
    obtain ⟨k, hk⟩ := pymod_congr (s.lst (.date d) false - s.lst (.date d) true) 24
    rw [h] at hk
    have k1 : -1 < (k : ℝ) := by linarith
    have k2 : (k : ℝ) < 1 := by linarith
    have k3 : -1 < k := by exact_mod_cast k1
    have k4 : k < 1 := by exact_mod_cast k2
    have : k = 0 := by omega
    rw [this] at hk
    apply hne
    push_cast at hk
    linarith
  · rw [sub_self, pymod_of_mem _ _ le_rfl (by norm_num), zero_div]

/-- A `datetime` object as argument: its time is not read; the answer is that for sidereal time 0 on its date. -/
theorem datetime_time_ignored (s : Place) (t : DT) (apparent utc : Bool) :
    s.localTime (.datetime t) apparent utc = s.localTime (.hours 0 t.day) apparent utc := rfl

/-! ## C103: refraction -/

/-- The argument `refraction`: False, True or a temperature. -/
inductive Refraction where
  | off | on | temperature (T : ℝ)

/-- The additive correction in radians for the altitude `h` in radians, obstools.py 1334-1340. -/
noncomputable def correction (h : ℝ) : ℝ := radians (1.02 / tan (h + 10.3 / (h + 5.11)) / 60)

/-- The refraction step of `apparentCoordinates` for one altitude in radians, obstools.py 1315-1344, when a date is given.  The pressure for the
site's altitude and the temperature are computed there and not used. -/
noncomputable def refract (_siteAltitude : ℝ) (r : Refraction) (h : ℝ) : ℝ :=
  match r with
  | .off => h
  | .on => h + correction h
  | .temperature T => if T = 0 then h else h + correction h

/-- `apparentCoordinates(coords,datetime,precess=False,refraction)` for one position, obstools.py 1303-1346: without a date there is no
refraction.  Returns altitude and azimuth in degrees. -/
noncomputable def apparent (s : Place) (siteAltitude : ℝ) (p : EqPos) (now : ℝ) (date : Option ℝ) (r : Refraction) : ℝ × ℝ :=
  match date with
  | none =>
    let res := toHorizontal s.lat p (s.lst (.jd now) true)
    (res.alt, res.az)
  | some jd =>
    let res := toHorizontal s.lat p (s.lst (.jd jd) true)
    (degrees (refract siteAltitude r (radians res.alt)), res.az)

/-- The refraction of Meeus' formula, in degrees, for an altitude in degrees. -/
noncomputable def meeus (h : ℝ) : ℝ := 1.02 / tan (radians (h + 10.3 / (h + 5.11))) / 60

/-- What the formula gives for altitudes in degrees: objects are raised, from the horizon to 89 degrees. -/
theorem meeus_raises (h : ℝ) (h0 : 0 ≤ h) (h1 : h ≤ 89) : 0 < meeus h := by
  have hpi := pi_pos
  unfold meeus
  have hx : 0 < h + 10.3 / (h + 5.11) := by positivity
  have hx2 : h + 10.3 / (h + 5.11) < 90 := by
    have : 10.3 / (h + 5.11) < 90 - h := by
      rw [div_lt_iff₀ (by linarith)]
      nlinarith
    linarith
  have ht : 0 < tan (radians (h + 10.3 / (h + 5.11))) := by
    apply tan_pos_of_pos_of_lt_pi_div_two
    · unfold radians; positivity
    · unfold radians; rw [div_lt_iff₀ (by norm_num)]; nlinarith
  positivity

/-- What the code does: every object from the horizon to the zenith is lowered. -/
theorem refraction_lowers (siteAltitude h : ℝ) (h0 : 0 ≤ h) (h1 : h ≤ π / 2) : refract siteAltitude .on h < h := by
  have p1 := pi_gt_d4
  have p2 := pi_lt_d4
  unfold refract correction
  simp only
  have a1 : π / 2 < h + 10.3 / (h + 5.11) := by
    have : π / 2 - h < 10.3 / (h + 5.11) := by
      rw [lt_div_iff₀ (by linarith)]
      nlinarith
    linarith
  have a2 : h + 10.3 / (h + 5.11) < π := by
    have : 10.3 / (h + 5.11) < π - h := by
      rw [div_lt_iff₀ (by linarith)]
      have hz : 0 ≤ h * (π / 2 - h) := mul_nonneg h0 (by linarith)
      nlinarith
    linarith
  have ht : tan (h + 10.3 / (h + 5.11)) < 0 := by
    have : tan (h + 10.3 / (h + 5.11)) = tan (h + 10.3 / (h + 5.11) - π) := by rw [tan_sub_pi]
    rw [this]
    exact tan_neg_of_neg_of_pi_div_two_lt (by linarith) (by linarith)
  have hneg : 1.02 / tan (h + 10.3 / (h + 5.11)) < 0 := div_neg_of_pos_of_neg (by norm_num) ht
  have : radians (1.02 / tan (h + 10.3 / (h + 5.11)) / 60) < 0 := by
    unfold radians
    have hpi := pi_pos
    apply div_neg_of_neg_of_pos _ (by norm_num)
    apply mul_neg_of_neg_of_pos _ hpi
    exact div_neg_of_neg_of_pos hneg (by norm_num)
  linarith

/-- Temperature and height of the site have no effect, apart from a temperature of 0 which switches refraction off. -/
theorem conditions_ignored (a b T h : ℝ) (hT : T ≠ 0) : refract a (.temperature T) h = refract b .on h := by
  unfold refract; simp [hT]

/-- Without a date refraction is not applied, whatever the argument; with a date and no refraction the position is the geometric one. -/
theorem no_date_no_refraction (s : Place) (siteAltitude : ℝ) (p : EqPos) (now : ℝ) (r : Refraction) :
    apparent s siteAltitude p now none r = apparent s siteAltitude p now (some now) .off ∧
    apparent s siteAltitude p now none r =
      ((toHorizontal s.lat p (s.lst (.jd now) true)).alt, (toHorizontal s.lat p (s.lst (.jd now) true)).az) := by
  refine ⟨?_, rfl⟩
  unfold apparent refract
  simp only [degrees_radians]

/-- The azimuth is never changed by refraction. -/
theorem azimuth_unchanged (s : Place) (siteAltitude : ℝ) (p : EqPos) (now jd : ℝ) (r : Refraction) :
    (apparent s siteAltitude p now (some jd) r).2 = (toHorizontal s.lat p (s.lst (.jd jd) true)).az := rfl

/-- With a date, an object above the horizon is reported lower than it stands. -/
theorem apparent_lower (s : Place) (siteAltitude : ℝ) (p : EqPos) (now jd : ℝ)
    (h : 0 ≤ (toHorizontal s.lat p (s.lst (.jd jd) true)).alt) :
    (apparent s siteAltitude p now (some jd) .on).1 < (toHorizontal s.lat p (s.lst (.jd jd) true)).alt := by
  have hpi := pi_pos
  obtain ⟨_, h2, _⟩ := horizontal_range s.lat p (s.lst (.jd jd) true)
  unfold apparent
  simp only
  generalize (toHorizontal s.lat p (s.lst (.jd jd) true)).alt = A at *
  have h0 : 0 ≤ radians A := by unfold radians; positivity
  have h1 : radians A ≤ π / 2 := by unfold radians; rw [div_le_iff₀ (by norm_num)]; nlinarith
  have := refraction_lowers siteAltitude (radians A) h0 h1
  have e : A = degrees (radians A) := (degrees_radians A).symm
  rw [e]
  rw [radians_degrees]
  unfold degrees
  apply div_lt_div_of_pos_right _ hpi
  linarith

/-- A case: a place at the equator whose clocks show Greenwich time, with a difference of mean and apparent time of half a second. -/
noncomputable def greenwich : Place :=
  { long := 0, off := 0, lat := 0, jdOf := fun t => t.total / 86400000000,
    gst := fun x a => pymod (24 * rate * x + if a then 0 else 1 / 7200) 24 }

theorem greenwich_uniform : Uniform greenwich.site 0 := by
  intro d
  unfold Place.site greenwich Place.lst Place.argJd
  simp only [if_true, add_zero, zero_div]
  obtain ⟨k, hk⟩ := pymod_congr (24 * rate * ((((⟨d, 0, 0, 0, 0⟩ : DT).total : ℤ) : ℝ) / 86400000000)) 24
  rw [hk, pymod_add _ _ (by norm_num)]
  congr 1
  unfold DT.total
  push_cast
  ring

example : greenwich.lst (.date 0) false ≠ greenwich.lst (.date 0) true := by
  unfold greenwich Place.lst Place.argJd DT.total
  norm_num
  rw [pymod_of_mem (1 / 7200) 24 (by norm_num) (by norm_num), pymod_of_mem (1 / 7200) 24 (by norm_num) (by norm_num),
    pymod_of_mem 0 24 (by norm_num) (by norm_num), pymod_of_mem 0 24 (by norm_num) (by norm_num)]
  norm_num

end Verif.SiteTime

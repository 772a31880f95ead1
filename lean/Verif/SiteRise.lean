import Verif.SiteHorizon

/-!
# Rising, setting and transit (astropysics/obstools.py 913-1012, 1085-1277) (C101, C102)

Exact real arithmetic.  Days are numbered by integers.  What the methods ask of the site is the sidereal time at local midnight of each day
(`self.localSiderialTime(date)`) and the offset of its time zone from UTC in hours, which is taken to be constant.
-/

namespace Verif.SiteRise

open Real Verif.CoordSky Verif.SiteHorizon

/-- The part of a `Site` used here: geographic latitude (degrees), sidereal time at local midnight of a day, offset of the zone from UTC (hours). -/
structure Site where
  lat : ℝ
  lst0 : ℤ → ℝ
  off : ℝ

/-- The ratio of sidereal to civil time, obstools.py 976 and 1127. -/
noncomputable def rate : ℝ := 1.0027378507871321

/-- `localTime(lsts,date,utc=utc)` with decimal hours as result, obstools.py 968-986. -/
noncomputable def Site.localTime (s : Site) (lst : ℝ) (d : ℤ) (utc : Bool) : ℝ :=
  let lt := pymod (lst - s.lst0 d) 24 / rate
  if utc then pymod (lt - s.off) 24 else lt

/-- Python's `int(x)`: rounding towards 0. -/
noncomputable def pyint (x : ℝ) : ℤ := if 0 ≤ x then ⌊x⌋ else ⌈x⌉

/-- A `datetime` object without its zone. -/
structure DT where
  day : ℤ
  hour : ℤ
  min : ℤ
  sec : ℤ
  us : ℤ
deriving DecidableEq, Repr

/-- `datetime + timedelta(k)` for whole days. -/
def DT.addDays (t : DT) (k : ℤ) : DT := { t with day := t.day + k }

/-- The number of microseconds since the beginning of day 0. -/
def DT.total (t : DT) : ℤ := (((t.day * 24 + t.hour) * 60 + t.min) * 60 + t.sec) * 1000000 + t.us

/-- `localTime(...,returntype='datetime')`, obstools.py 996-1007. -/
noncomputable def Site.localDateTime (s : Site) (lst : ℝ) (d : ℤ) (utc : Bool) : DT :=
  let lthr := s.localTime lst d utc
  let dayoff := pyint ((lst - s.lst0 d) / 24)
  let hr := pyint lthr
  let min := 60 * (lthr - hr)
  let sec := 60 * (min - pyint min)
  let us := pyint (1000000 * (sec - pyint sec))
  (DT.mk d hr (pyint min) (pyint sec) us).addDays dayoff

/-- A result (rise, set, transit), each possibly None. -/
structure Triple (α : Type) where
  rise : Option α
  set : Option α
  transit : Option α

inductive Err where
  | zeroDivision | type
deriving DecidableEq, Repr

/-- `coslha`, obstools.py 1117-1120 (angles in radians). -/
noncomputable def coslha (alt lat dec : ℝ) : ℝ := (sin alt - sin lat * sin dec) / (cos lat * cos dec)

/-- obstools.py 1121-1130. -/
noncomputable def riseSetHours (transit c : ℝ) : Triple ℝ :=
  if c < -1 then ⟨none, none, some transit⟩
  else if 1 < c then ⟨none, none, none⟩
  else
    let lha := arccos c * 12 / π
    let lha := lha / rate
    ⟨some (pymod (transit - lha) 24), some (pymod (transit + lha) 24), some transit⟩

/-- `riseSetTransit(eqpos,date,alt,timeobj=False,utc=utc)`, obstools.py 1104-1130. -/
noncomputable def Site.riseSetTransit (s : Site) (p : EqPos) (d : ℤ) (alt : ℝ) (utc : Bool) : Except Err (Triple ℝ) :=
  let transit := s.localTime p.ra d utc
  let lat := radians s.lat
  if cos lat * cos p.dec = 0 then .error .zeroDivision
  else .ok (riseSetHours transit (coslha (radians alt) lat p.dec))

/-- `hrtodatetime(t)`, obstools.py 1134-1147 for a given date. -/
noncomputable def hrToDateTime (day : ℤ) (t : ℝ) : DT :=
  let hr := ⌊t⌋
  let t1 := (t - hr) * 60
  let min := ⌊t1⌋
  let t2 := (t1 - min) * 60
  let sec := ⌊t2⌋
  let t3 := (t2 - sec) * 1000000
  ⟨day, hr, min, sec, ⌊t3⌋⟩

/-- obstools.py 1150-1159: the dates. -/
noncomputable def toDateTimes (day : ℤ) (r : Triple ℝ) : Triple DT :=
  match r.rise, r.set, r.transit with
  | some rise, some set, some transit =>
    ⟨some (if rise < transit then hrToDateTime day rise else (hrToDateTime day rise).addDays (-1)),
     some (if set > transit then hrToDateTime day set else (hrToDateTime day set).addDays 1),
     some (hrToDateTime day transit)⟩
  | _, _, transit => ⟨none, none, transit.map (hrToDateTime day)⟩

/-- `riseSetTransit(eqpos,date,alt,timeobj=True,utc=utc)`, obstools.py 1104-1159. -/
noncomputable def Site.riseSetTransitDT (s : Site) (p : EqPos) (d : ℤ) (alt : ℝ) (utc : Bool) : Except Err (Triple DT) :=
  match s.riseSetTransit p d alt utc with
  | .error e => .error e
  | .ok r => .ok (toDateTimes (s.localDateTime p.ra d utc).day r)

/-- `dtime < x` for an x that may be None. -/
def before (now : ℤ) : Option DT → Except Err Bool
  | none => .error .type
  | some t => .ok (decide (now < t.total))

/-- obstools.py 1209-1239, with the results for yesterday, today and tomorrow. -/
def chooseWindow (now : ℤ) (w0 w1 w2 : Triple DT) : Except Err (Triple DT) :=
  match w1.rise, w1.transit with
  | none, some _ =>
    match before now w1.transit with
    | .error e => .error e
    | .ok true => .ok w1
    | .ok false => .ok w2
  | _, none => .ok w1
  | some _, some _ =>
    match before now w0.set with
    | .error e => .error e
    | .ok true => .ok w0
    | .ok false =>
      match before now w1.set with
      | .error e => .error e
      | .ok true => .ok w1
      | .ok false => .ok w2

/-- `nextRiseSetTransit(eqpos,dtime,alt)`, obstools.py 1161-1239; `now` is the moment `dtime` in microseconds of UTC and `today` is
`dtime.date()`. -/
noncomputable def Site.nextRiseSetTransit (s : Site) (p : EqPos) (today now : ℤ) (alt : ℝ) : Except Err (Triple DT) :=
  match s.riseSetTransitDT p today alt true, s.riseSetTransitDT p (today + 1) alt true, s.riseSetTransitDT p (today - 1) alt true with
  | .ok w1, .ok w2, .ok w0 => chooseWindow now w0 w1 w2
  | _, _, _ => .error .zeroDivision

/-- obstools.py 1264-1277. -/
def skyVerdict (now : ℤ) (w : Triple DT) : Except Err Bool :=
  match w.transit with
  | none => .ok false
  | some _ =>
    match w.rise, w.set with
    | none, _ => .ok true
    | some r, some s => .ok (decide (r.total ≤ now ∧ now ≤ s.total))
    | some _, none => .error .type

/-- `onSky(eqpos,dtime,alt)`, obstools.py 1241-1277. -/
noncomputable def Site.onSky (s : Site) (p : EqPos) (today now : ℤ) (alt : ℝ) : Except Err Bool :=
  match s.nextRiseSetTransit p today now alt with
  | .error e => .error e
  | .ok w => skyVerdict now w

/-! ## Specification -/

/-- The altitude in degrees `h` sidereal hours after transit. -/
noncomputable def altitudeAt (s : Site) (p : EqPos) (h : ℝ) : ℝ := (toHorizontal s.lat p (p.ra + h)).alt

/-- Latitude and declination short of the poles. -/
def Ordinary (s : Site) (p : EqPos) : Prop := |s.lat| < 90 ∧ |p.dec| < π / 2

/-! ## Lemmas -/

theorem rate_pos : 0 < rate := by unfold rate; norm_num

theorem cosines_pos (s : Site) (p : EqPos) (ho : Ordinary s p) : 0 < cos (radians s.lat) * cos p.dec := by
  have hpi := pi_pos
  obtain ⟨h1, h2⟩ := ho
  obtain ⟨a1, a2⟩ := abs_lt.1 h1
  obtain ⟨b1, b2⟩ := abs_lt.1 h2
  apply mul_pos
  · apply cos_pos_of_mem_Ioo
    unfold radians
    constructor
    · rw [lt_div_iff₀ (by norm_num)]; nlinarith
    · rw [div_lt_iff₀ (by norm_num)]; nlinarith
  · exact cos_pos_of_mem_Ioo ⟨b1, b2⟩

theorem radians_mem (a : ℝ) (h : |a| ≤ 90) : radians a ∈ Set.Icc (-(π / 2)) (π / 2) := by
  have hpi := pi_pos
  obtain ⟨a1, a2⟩ := abs_le.1 h
  unfold radians
  constructor
  · rw [le_div_iff₀ (by norm_num)]; nlinarith
  · rw [div_le_iff₀ (by norm_num)]; nlinarith

/-- Comparing altitudes is comparing the cosine of the hour angle with `coslha`. -/
theorem altitude_ge_iff (s : Site) (p : EqPos) (ho : Ordinary s p) (alt : ℝ) (ha : |alt| ≤ 90) (h : ℝ) :
    alt ≤ altitudeAt s p h ↔ coslha (radians alt) (radians s.lat) p.dec ≤ cos (π * h / 12) := by
  have hpi := pi_pos
  have hc := cosines_pos s p ho
  have hH : hourAngle (p.ra + h) p.ra = π * h / 12 := by unfold hourAngle; ring
  unfold altitudeAt coslha
  rw [toHorizontal_alt, hH, div_le_iff₀ hc]
  have e : alt ≤ degrees (altRad (radians s.lat) p.dec (π * h / 12)) ↔ radians alt ≤ altRad (radians s.lat) p.dec (π * h / 12) := by
    unfold degrees radians
    rw [le_div_iff₀ hpi, div_le_iff₀ (by norm_num)]
  rw [e]
  have hm : altRad (radians s.lat) p.dec (π * h / 12) ∈ Set.Icc (-(π / 2)) (π / 2) := arcsin_mem_Icc _
  rw [← strictMonoOn_sin.le_iff_le (radians_mem alt ha) hm, sin_altRad]
  constructor <;> intro hh <;> nlinarith

theorem altitude_lt_iff (s : Site) (p : EqPos) (ho : Ordinary s p) (alt : ℝ) (ha : |alt| ≤ 90) (h : ℝ) :
    altitudeAt s p h < alt ↔ cos (π * h / 12) < coslha (radians alt) (radians s.lat) p.dec := by
  rw [← not_le, ← not_le, altitude_ge_iff s p ho alt ha h]

theorem altitude_eq_iff (s : Site) (p : EqPos) (ho : Ordinary s p) (alt : ℝ) (ha : |alt| ≤ 90) (h : ℝ) :
    altitudeAt s p h = alt ↔ cos (π * h / 12) = coslha (radians alt) (radians s.lat) p.dec := by
  have hpi := pi_pos
  have hc := cosines_pos s p ho
  have hH : hourAngle (p.ra + h) p.ra = π * h / 12 := by unfold hourAngle; ring
  unfold altitudeAt coslha
  rw [toHorizontal_alt, hH, eq_div_iff hc.ne']
  have e : degrees (altRad (radians s.lat) p.dec (π * h / 12)) = alt ↔ altRad (radians s.lat) p.dec (π * h / 12) = radians alt := by
    constructor
    · intro hh; rw [← hh, radians_degrees]
    · intro hh; rw [hh, degrees_radians]
  rw [e]
  have hm : altRad (radians s.lat) p.dec (π * h / 12) ∈ Set.Icc (-(π / 2)) (π / 2) := arcsin_mem_Icc _
  constructor
  · intro hh; have := congrArg sin hh; rw [sin_altRad] at this; linarith
  · intro hh
    apply injOn_sin hm (radians_mem alt ha)
    rw [sin_altRad]; linarith

/-! ## C101: rise, set, transit -/

/-- Rise and set are None while there is a transit exactly if the object stays above the altitude all day. -/
theorem circumpolar_iff (s : Site) (p : EqPos) (ho : Ordinary s p) (d : ℤ) (alt : ℝ) (ha : |alt| ≤ 90) (utc : Bool) :
    s.riseSetTransit p d alt utc = .ok ⟨none, none, some (s.localTime p.ra d utc)⟩ ↔ ∀ h, alt < altitudeAt s p h := by
  have hc := cosines_pos s p ho
  have hlt : ∀ h, alt < altitudeAt s p h ↔ coslha (radians alt) (radians s.lat) p.dec < cos (π * h / 12) := fun h => by
    rw [lt_iff_le_and_ne, lt_iff_le_and_ne, altitude_ge_iff s p ho alt ha h]
    have := altitude_eq_iff s p ho alt ha h
    constructor
    · rintro ⟨h1, h2⟩; exact ⟨h1, fun h3 => h2 (this.2 h3.symm).symm⟩
    · rintro ⟨h1, h2⟩; exact ⟨h1, fun h3 => h2 (this.1 h3.symm).symm⟩
  unfold Site.riseSetTransit riseSetHours
  simp only [hc.ne', if_false]
  constructor
  · intro hh h
    rw [hlt]
    split at hh
    · linarith [neg_one_le_cos (π * h / 12)]
    · split at hh <;> simp at hh
  · intro hh
    have := (hlt 12).1 (hh 12)
    rw [show π * 12 / 12 = π by ring, cos_pi] at this
    rw [if_pos this]

/-- All three are None exactly if the object stays below the altitude all day. -/
theorem never_iff (s : Site) (p : EqPos) (ho : Ordinary s p) (d : ℤ) (alt : ℝ) (ha : |alt| ≤ 90) (utc : Bool) :
    s.riseSetTransit p d alt utc = .ok ⟨none, none, none⟩ ↔ ∀ h, altitudeAt s p h < alt := by
  have hc := cosines_pos s p ho
  unfold Site.riseSetTransit riseSetHours
  simp only [hc.ne', if_false]
  constructor
  · intro hh h
    rw [altitude_lt_iff s p ho alt ha]
    split at hh
    · simp at hh
    · split at hh
      · linarith [cos_le_one (π * h / 12)]
      · simp at hh
  · intro hh
    have := (altitude_lt_iff s p ho alt ha 0).1 (hh 0)
    rw [show π * 0 / 12 = (0 : ℝ) by ring, cos_zero] at this
    rw [if_neg (by linarith), if_pos this]

/-- Otherwise there is a half arc of 0 to 12 sidereal hours such that the object is at or above the altitude exactly within the half arc of its
transit, at the altitude at its ends, and the rise and set times are the transit minus and plus the half arc in civil time, modulo a day. -/
theorem rise_set_hours (s : Site) (p : EqPos) (ho : Ordinary s p) (d : ℤ) (alt : ℝ) (ha : |alt| ≤ 90) (utc : Bool) (r : Triple ℝ)
    (hr : s.riseSetTransit p d alt utc = .ok r) (rise : ℝ) (hrise : r.rise = some rise) :
    ∃ arc set, 0 ≤ arc ∧ arc ≤ 12 ∧ r.set = some set ∧ r.transit = some (s.localTime p.ra d utc) ∧
      (∀ h, |h| ≤ 12 → (alt ≤ altitudeAt s p h ↔ |h| ≤ arc)) ∧ altitudeAt s p arc = alt ∧ altitudeAt s p (-arc) = alt ∧
      (∃ k : ℤ, rise = s.localTime p.ra d utc - arc / 1.0027378507871321 + 24 * k) ∧ 0 ≤ rise ∧ rise < 24 ∧
      (∃ k : ℤ, set = s.localTime p.ra d utc + arc / 1.0027378507871321 + 24 * k) ∧ 0 ≤ set ∧ set < 24 := by
  have hpi := pi_pos
  have hc := cosines_pos s p ho
  unfold Site.riseSetTransit riseSetHours at hr
  simp only [hc.ne', if_false] at hr
  split at hr
  · injection hr with hr; subst hr; simp at hrise
  split at hr
  · injection hr with hr; subst hr; simp at hrise
  rename_i h1 h2
  injection hr with hr
  subst hr
  simp only [Option.some.injEq] at hrise
  have c1 : -1 ≤ coslha (radians alt) (radians s.lat) p.dec := not_lt.1 h1
  have c2 : coslha (radians alt) (radians s.lat) p.dec ≤ 1 := not_lt.1 h2
  generalize hC : coslha (radians alt) (radians s.lat) p.dec = c at *
  have m0 := arccos_nonneg c
  have m1 := arccos_le_pi c
  have hcos : cos (π * (arccos c * 12 / π) / 12) = c := by
    rw [show π * (arccos c * 12 / π) / 12 = arccos c by field_simp, cos_arccos c1 c2]
  refine ⟨arccos c * 12 / π, _, by positivity, ?_, rfl, rfl, ?_, ?_, ?_, ?_, ?_, ?_, ?_, ?_, ?_⟩
  · rw [div_le_iff₀ hpi]; nlinarith
  · intro h hh
    rw [altitude_ge_iff s p ho alt ha, hC]
    have e : cos (π * h / 12) = cos (π * |h| / 12) := by
      rw [← cos_abs, abs_div, abs_mul, abs_of_pos hpi, abs_of_pos (by norm_num : (0:ℝ) < 12)]
    rw [e]
    have m : π * |h| / 12 ∈ Set.Icc 0 π := ⟨by positivity, by rw [div_le_iff₀ (by norm_num)]; nlinarith⟩
    have m' : arccos c ∈ Set.Icc 0 π := ⟨m0, m1⟩
    rw [le_div_iff₀ hpi]
    conv_lhs => rw [← cos_arccos c1 c2]
    rw [strictAntiOn_cos.le_iff_ge m' m, div_le_iff₀ (by norm_num)]
    constructor <;> intro hh <;> nlinarith
  · rw [altitude_eq_iff s p ho alt ha, hC, hcos]
  · rw [altitude_eq_iff s p ho alt ha, hC, show π * -(arccos c * 12 / π) / 12 = -(π * (arccos c * 12 / π) / 12) by ring, cos_neg, hcos]
  · rw [← hrise]; exact pymod_congr _ _
  · rw [← hrise]; exact pymod_nonneg _ _ (by norm_num)
  · rw [← hrise]; exact pymod_lt _ _ (by norm_num)
  · exact pymod_congr _ _
  · exact pymod_nonneg _ _ (by norm_num)
  · exact pymod_lt _ _ (by norm_num)

/-- One of the three cases occurs for every object and site short of the poles. -/
theorem rise_set_total (s : Site) (p : EqPos) (ho : Ordinary s p) (d : ℤ) (alt : ℝ) (utc : Bool) :
    ∃ r, s.riseSetTransit p d alt utc = .ok r ∧ (r.rise.isSome ↔ r.set.isSome) ∧ (r.rise.isSome → r.transit.isSome) := by
  have hc := cosines_pos s p ho
  unfold Site.riseSetTransit riseSetHours
  simp only [hc.ne', if_false]
  refine ⟨_, rfl, ?_, ?_⟩ <;> split <;> [simp; (split <;> simp); simp; (split <;> simp)]

/-! ### Times of day as date and time objects -/

theorem floor_mul_nat (x : ℝ) (n : ℕ) : ⌊x * n⌋ = ⌊x⌋ * n + ⌊(x - ⌊x⌋) * n⌋ := by
  have : x * n = (x - ⌊x⌋) * n + ((⌊x⌋ * n : ℤ) : ℝ) := by push_cast; ring
  conv_lhs => rw [this]
  rw [Int.floor_add_intCast]
  ring

/-- The date and time object for a number of hours is the moment of that number of whole microseconds. -/
theorem hrToDateTime_total (day : ℤ) (t : ℝ) : (hrToDateTime day t).total = ⌊(24 * day + t) * 3600000000⌋ := by
  unfold hrToDateTime DT.total
  simp only
  have h1 := floor_mul_nat t 60
  have h2 := floor_mul_nat ((t - ⌊t⌋) * 60) 60
  have h3 := floor_mul_nat (((t - ⌊t⌋) * 60 - ⌊(t - ⌊t⌋) * 60⌋) * 60) 1000000
  have g1 := floor_mul_nat t 3600000000
  have g2 := floor_mul_nat ((t - ⌊t⌋) * 60) 60000000
  have e1 : (t - ⌊t⌋) * ((3600000000 : ℕ) : ℝ) = (t - ⌊t⌋) * 60 * ((60000000 : ℕ) : ℝ) := by push_cast; ring
  have e2 : ((t - ⌊t⌋) * 60 - ⌊(t - ⌊t⌋) * 60⌋) * ((60000000 : ℕ) : ℝ) =
      ((t - ⌊t⌋) * 60 - ⌊(t - ⌊t⌋) * 60⌋) * 60 * ((1000000 : ℕ) : ℝ) := by push_cast; ring
  rw [e1] at g1
  rw [e2] at g2
  have e3 : (24 * (day : ℝ) + t) * 3600000000 = t * ((3600000000 : ℕ) : ℝ) + ((86400000000 * day : ℤ) : ℝ) := by push_cast; ring
  rw [e3, Int.floor_add_intCast, g1, g2, h3]
  push_cast
  ring

theorem hrToDateTime_addDays (day k : ℤ) (t : ℝ) : (hrToDateTime day t).addDays k = hrToDateTime (day + k) t := rfl

theorem pymod_small (x y : ℝ) (h0 : 0 ≤ x) (h1 : x < 24) (hy0 : 0 < y) (hy1 : y < 24) :
    (pymod (x - y) 24 < x ∧ pymod (x - y) 24 = x - y) ∨ (x < pymod (x - y) 24 ∧ pymod (x - y) 24 = x - y + 24) := by
  by_cases h : y ≤ x
  · left
    have := pymod_of_mem (x - y) 24 (by linarith) (by linarith)
    exact ⟨by linarith, this⟩
  · right
    have := pymod_unique (x - y) 24 (x - y + 24) (by norm_num) (by linarith) (by linarith) 1 (by push_cast; ring)
    exact ⟨by linarith, this⟩

theorem pymod_small' (x y : ℝ) (h0 : 0 ≤ x) (h1 : x < 24) (hy0 : 0 < y) (hy1 : y < 24) :
    (x < pymod (x + y) 24 ∧ pymod (x + y) 24 = x + y) ∨ (pymod (x + y) 24 < x ∧ pymod (x + y) 24 = x + y - 24) := by
  by_cases h : x + y < 24
  · left
    have := pymod_of_mem (x + y) 24 (by linarith) h
    exact ⟨by linarith, this⟩
  · right
    have := pymod_unique (x + y) 24 (x + y - 24) (by norm_num) (by linarith) (by linarith) (-1) (by push_cast; ring)
    exact ⟨by linarith, this⟩

theorem localTime_range (s : Site) (lst : ℝ) (d : ℤ) (utc : Bool) : 0 ≤ s.localTime lst d utc ∧ s.localTime lst d utc < 24 := by
  unfold Site.localTime
  simp only
  split
  · exact ⟨pymod_nonneg _ _ (by norm_num), pymod_lt _ _ (by norm_num)⟩
  · have h0 := pymod_nonneg (lst - s.lst0 d) 24 (by norm_num)
    have h1 := pymod_lt (lst - s.lst0 d) 24 (by norm_num)
    have hr := rate_pos
    refine ⟨by positivity, ?_⟩
    rw [div_lt_iff₀ hr]
    unfold rate
    linarith

/-- The date that is used is the given one, also when the times are wanted in UTC. -/
theorem transit_day (s : Site) (lst : ℝ) (d : ℤ) (utc : Bool) (h0 : 0 ≤ lst) (h1 : lst < 24) (g0 : 0 ≤ s.lst0 d) (g1 : s.lst0 d < 24) :
    (s.localDateTime lst d utc).day = d := by
  unfold Site.localDateTime DT.addDays pyint
  simp only
  split
  · rename_i h
    have : ⌊(lst - s.lst0 d) / 24⌋ = 0 := by
      rw [Int.floor_eq_zero_iff]
      exact ⟨h, by rw [div_lt_one (by norm_num)]; linarith⟩
    rw [this, add_zero]
  · rename_i h
    have : ⌈(lst - s.lst0 d) / 24⌉ = 0 := by
      rw [Int.ceil_eq_zero_iff]
      exact ⟨by rw [lt_div_iff₀ (by norm_num)]; linarith, le_of_not_ge h⟩
    rw [this, add_zero]

/-- With `timeobj=True` the objects are, for some half arc as in `rise_set_hours` that is not 0, the moments half an arc before and after the transit
(cut to microseconds), also when they fall on the day before or after. -/
theorem rise_set_datetimes (s : Site) (p : EqPos) (ho : Ordinary s p) (d : ℤ) (alt : ℝ) (ha : |alt| ≤ 90) (utc : Bool) (w : Triple DT)
    (hra : 0 ≤ p.ra ∧ p.ra < 24) (hl : 0 ≤ s.lst0 d ∧ s.lst0 d < 24) (hne : altitudeAt s p 0 ≠ alt)
    (hw : s.riseSetTransitDT p d alt utc = .ok w) (rise : DT) (hrise : w.rise = some rise) :
    ∃ arc set transit, 0 < arc ∧ arc ≤ 12 ∧ w.set = some set ∧ w.transit = some transit ∧
      (∀ h, |h| ≤ 12 → (alt ≤ altitudeAt s p h ↔ |h| ≤ arc)) ∧
      transit.total = ⌊(24 * d + s.localTime p.ra d utc) * 3600000000⌋ ∧
      rise.total = ⌊(24 * d + s.localTime p.ra d utc - arc / 1.0027378507871321) * 3600000000⌋ ∧
      set.total = ⌊(24 * d + s.localTime p.ra d utc + arc / 1.0027378507871321) * 3600000000⌋ := by
  unfold Site.riseSetTransitDT at hw
  have hday := transit_day s p.ra d utc hra.1 hra.2 hl.1 hl.2
  cases hr : s.riseSetTransit p d alt utc with
  | error e => simp [hr] at hw
  | ok r =>
    simp only [hr, hday, Except.ok.injEq] at hw
    cases hrr : r.rise with
    | none =>
      have : (toDateTimes d r).rise = none := by unfold toDateTimes; simp [hrr]
      rw [hw, hrise] at this; simp at this
    | some x =>
      obtain ⟨arc, set, a0, a1, hs, ht, hvis, hend, _, ⟨k, hk⟩, x0, x1, ⟨l, hl'⟩, y0, y1⟩ := rise_set_hours s p ho d alt ha utc r hr x hrr
      have apos : 0 < arc := by
        rcases a0.lt_or_eq with h | h
        · exact h
        · rw [← h] at hend; exact absurd hend hne
      have r1 : 0 < arc / 1.0027378507871321 := by positivity
      have r2 : arc / 1.0027378507871321 < 24 := by rw [div_lt_iff₀ (by norm_num)]; linarith
      obtain ⟨t0, t1⟩ := localTime_range s p.ra d utc
      generalize hT : s.localTime p.ra d utc = T at *
      have hx : x = pymod (T - arc / 1.0027378507871321) 24 :=
        (pymod_unique _ _ _ (by norm_num) x0 x1 k (by rw [hk])).symm
      have hy : set = pymod (T + arc / 1.0027378507871321) 24 :=
        (pymod_unique _ _ _ (by norm_num) y0 y1 l (by rw [hl'])).symm
      unfold toDateTimes at hw
      simp only [hrr, hs, ht] at hw
      subst hw
      simp only [Option.some.injEq] at hrise
      refine ⟨arc, _, _, apos, a1, rfl, rfl, hvis, ?_, ?_, ?_⟩
      · rw [hrToDateTime_total]
      · rw [← hrise]
        rcases pymod_small T _ t0 t1 r1 r2 with ⟨h1, h2⟩ | ⟨h1, h2⟩
        · rw [if_pos (by rw [hx]; exact h1), hrToDateTime_total, hx, h2]
          congr 2; ring
        · rw [if_neg (by rw [hx]; linarith), hrToDateTime_addDays, hrToDateTime_total, hx, h2]
          congr 2; push_cast; ring
      · rcases pymod_small' T _ t0 t1 r1 r2 with ⟨h1, h2⟩ | ⟨h1, h2⟩
        · rw [if_pos (by rw [hy]; exact h1), hrToDateTime_total, hy, h2]
          congr 2; ring
        · rw [if_neg (by rw [hy]; simpa using h1.le), hrToDateTime_addDays, hrToDateTime_total, hy, h2]
          congr 2; push_cast; ring

end Verif.SiteRise

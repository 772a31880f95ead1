import Verif.SiteRise

/-!
# What `riseSetTransit`, `nextRiseSetTransit` and `onSky` say about the sky (C101, C102)
-/

namespace Verif.SiteRise

open Real Verif.CoordSky Verif.SiteHorizon

/-! ## Specification: the sky over the site

Sidereal time runs uniformly: it is `L0 + rate * x` hours (modulo 24) when `x` hours of UTC have passed since the beginning of day 0. -/

/-- The altitude in degrees at the moment `x` (hours of UTC). -/
noncomputable def skyAltitude (s : Site) (p : EqPos) (L0 x : ℝ) : ℝ := (toHorizontal s.lat p (L0 + rate * x)).alt

/-- The sidereal times at local midnight are those of the uniform clock; local midnight of day `d` is at `24*d - off` hours UTC. -/
def Uniform (s : Site) (L0 : ℝ) : Prop := ∀ d : ℤ, s.lst0 d = pymod (L0 + rate * (24 * d - s.off)) 24

theorem Uniform.range {s : Site} {L0 : ℝ} (h : Uniform s L0) (d : ℤ) : 0 ≤ s.lst0 d ∧ s.lst0 d < 24 := by
  rw [h d]; exact ⟨pymod_nonneg _ _ (by norm_num), pymod_lt _ _ (by norm_num)⟩

/-! ## C102: local time of a sidereal time -/

/-- At the local time computed for a sidereal time on a day, the sidereal time is that one; the result lies on that day and is the first such moment
of the day. -/
theorem localTime_right (s : Site) (L0 : ℝ) (hu : Uniform s L0) (lst : ℝ) (d : ℤ) :
    (∃ k : ℤ, L0 + rate * (24 * d + s.localTime lst d false - s.off) = lst + 24 * k) ∧
    0 ≤ s.localTime lst d false ∧ s.localTime lst d false < 24 / rate ∧
    ∀ t, 0 ≤ t → (∃ k : ℤ, L0 + rate * (24 * d + t - s.off) = lst + 24 * k) → s.localTime lst d false ≤ t := by
  have hr := rate_pos
  obtain ⟨k, hk⟩ := pymod_congr (L0 + rate * (24 * d - s.off)) 24
  obtain ⟨l, hl⟩ := pymod_congr (lst - s.lst0 d) 24
  have e : rate * s.localTime lst d false = pymod (lst - s.lst0 d) 24 := by
    unfold Site.localTime; simp only [Bool.false_eq_true, if_false]; field_simp
  have p0 := pymod_nonneg (lst - s.lst0 d) 24 (by norm_num)
  have p1 := pymod_lt (lst - s.lst0 d) 24 (by norm_num)
  refine ⟨⟨l - k, ?_⟩, ?_, ?_, ?_⟩
  · rw [show L0 + rate * (24 * d + s.localTime lst d false - s.off) = L0 + rate * (24 * d - s.off) + rate * s.localTime lst d false by ring,
      e, hl, hu d, hk]
    push_cast; ring
  · unfold Site.localTime; simp only [Bool.false_eq_true, if_false]; positivity
  · unfold Site.localTime; simp only [Bool.false_eq_true, if_false]
    exact div_lt_div_of_pos_right p1 hr
  · rintro t t0 ⟨m, hm⟩
    have h2 : pymod (rate * t) 24 = pymod (lst - s.lst0 d) 24 := by
      rw [← pymod_add (lst - s.lst0 d) 24 (by norm_num) (m + k)]
      congr 1
      rw [hu d, hk]
      push_cast
      linarith
    have h3 : pymod (rate * t) 24 ≤ rate * t := by
      unfold pymod
      have : 0 ≤ ⌊rate * t / 24⌋ := Int.floor_nonneg.2 (by positivity)
      have : (0 : ℝ) ≤ ⌊rate * t / 24⌋ := by exact_mod_cast this
      linarith
    rw [h2, ← e] at h3
    exact le_of_mul_le_mul_left h3 hr

/-- In UTC the hours are those of the same moment, modulo a day. -/
theorem localTime_utc (s : Site) (lst : ℝ) (d : ℤ) :
    s.localTime lst d true = pymod (s.localTime lst d false - s.off) 24 := by
  unfold Site.localTime; simp

theorem pyint_nonneg (x : ℝ) (h : 0 ≤ x) : pyint x = ⌊x⌋ := by unfold pyint; rw [if_pos h]

/-- The date and time object is the moment cut to microseconds, on the given day. -/
theorem localDateTime_total (s : Site) (lst : ℝ) (d : ℤ) (utc : Bool) (h0 : 0 ≤ lst) (h1 : lst < 24) (g : 0 ≤ s.lst0 d ∧ s.lst0 d < 24) :
    (s.localDateTime lst d utc).total = ⌊(24 * d + s.localTime lst d utc) * 3600000000⌋ := by
  have hday := transit_day s lst d utc h0 h1 g.1 g.2
  obtain ⟨t0, _⟩ := localTime_range s lst d utc
  rw [← hrToDateTime_total]
  unfold Site.localDateTime at *
  simp only [DT.addDays] at hday
  generalize s.localTime lst d utc = t at *
  simp only [DT.addDays, hday, DT.total, hrToDateTime]
  have f0 : (0 : ℝ) ≤ 60 * (t - ⌊t⌋) := by have := Int.floor_le t; linarith
  have f1 : (0 : ℝ) ≤ 60 * (60 * (t - ⌊t⌋) - ⌊60 * (t - ⌊t⌋)⌋) := by have := Int.floor_le (60 * (t - ⌊t⌋)); linarith
  have f2 : (0 : ℝ) ≤ 1000000 * (60 * (60 * (t - ⌊t⌋) - ⌊60 * (t - ⌊t⌋)⌋) - ⌊60 * (60 * (t - ⌊t⌋) - ⌊60 * (t - ⌊t⌋)⌋)⌋) := by
    have := Int.floor_le (60 * (60 * (t - ⌊t⌋) - ⌊60 * (t - ⌊t⌋)⌋)); linarith
  rw [pyint_nonneg t t0, pyint_nonneg _ f0, pyint_nonneg _ f1, pyint_nonneg _ f2]
  rw [mul_comm 60 (t - ⌊t⌋), mul_comm 60 ((t - ⌊t⌋) * 60 - ⌊(t - ⌊t⌋) * 60⌋), mul_comm (1000000 : ℝ)]

/-! ## C101 continued -/

/-- Rise, transit and set come in this order and within half a day of each other. -/
theorem rise_set_order (s : Site) (p : EqPos) (ho : Ordinary s p) (d : ℤ) (alt : ℝ) (ha : |alt| ≤ 90) (utc : Bool) (w : Triple DT)
    (hra : 0 ≤ p.ra ∧ p.ra < 24) (hl : 0 ≤ s.lst0 d ∧ s.lst0 d < 24) (hne : altitudeAt s p 0 ≠ alt)
    (hw : s.riseSetTransitDT p d alt utc = .ok w) (rise : DT) (hrise : w.rise = some rise) :
    ∃ set transit, w.set = some set ∧ w.transit = some transit ∧ rise.total ≤ transit.total ∧ transit.total ≤ set.total ∧
      transit.total - rise.total ≤ 12 * 3600000000 ∧ set.total - transit.total ≤ 12 * 3600000000 ∧ transit.day = d := by
  obtain ⟨arc, set, transit, a0, a1, hs, ht, _, e1, e2, e3⟩ := rise_set_datetimes s p ho d alt ha utc w hra hl hne hw rise hrise
  have q0 : 0 < arc / 1.0027378507871321 := by positivity
  have q1 : arc / 1.0027378507871321 ≤ 12 := by rw [div_le_iff₀ (by norm_num)]; linarith
  refine ⟨set, transit, hs, ht, ?_, ?_, ?_, ?_, ?_⟩
  · rw [e1, e2]; apply Int.floor_le_floor; linarith
  · rw [e1, e3]; apply Int.floor_le_floor; linarith
  · rw [e1, e2]
    have : ⌊(24 * (d : ℝ) + s.localTime p.ra d utc) * 3600000000⌋ ≤
        ⌊(24 * (d : ℝ) + s.localTime p.ra d utc - arc / 1.0027378507871321) * 3600000000 + ((43200000000 : ℤ) : ℝ)⌋ := by
      apply Int.floor_le_floor; push_cast; linarith
    rw [Int.floor_add_intCast] at this
    linarith
  · rw [e1, e3]
    have : ⌊(24 * (d : ℝ) + s.localTime p.ra d utc + arc / 1.0027378507871321) * 3600000000⌋ ≤
        ⌊(24 * (d : ℝ) + s.localTime p.ra d utc) * 3600000000 + ((43200000000 : ℤ) : ℝ)⌋ := by
      apply Int.floor_le_floor; push_cast; linarith
    rw [Int.floor_add_intCast] at this
    linarith
  · unfold Site.riseSetTransitDT at hw
    rw [transit_day s p.ra d utc hra.1 hra.2 hl.1 hl.2] at hw
    cases hr : s.riseSetTransit p d alt utc with
    | error e => simp [hr] at hw
    | ok r =>
      simp only [hr, Except.ok.injEq] at hw
      subst hw
      unfold toDateTimes at ht
      split at ht
      · simp only [Option.some.injEq] at ht; rw [← ht]; rfl
      · cases hq : r.transit with
        | none => simp [hq] at ht
        | some z => simp only [hq, Option.map_some, Option.some.injEq] at ht; rw [← ht]; rfl

/-- Grazing objects: if the altitude is just reached at transit, the rise is put a day before and the set a day after the transit. -/
theorem grazing_counterexample (s : Site) (p : EqPos) (ho : Ordinary s p) (d : ℤ) (alt : ℝ) (ha : |alt| ≤ 90) (utc : Bool)
    (hra : 0 ≤ p.ra ∧ p.ra < 24) (hl : 0 ≤ s.lst0 d ∧ s.lst0 d < 24) (he : altitudeAt s p 0 = alt) :
    ∃ t, s.riseSetTransitDT p d alt utc = .ok ⟨some (t.addDays (-1)), some (t.addDays 1), some t⟩ := by
  have hc := cosines_pos s p ho
  have h1 := (altitude_eq_iff s p ho alt ha 0).1 he
  rw [show π * 0 / 12 = (0 : ℝ) by ring, cos_zero] at h1
  obtain ⟨t0, t1⟩ := localTime_range s p.ra d utc
  unfold Site.riseSetTransitDT Site.riseSetTransit
  rw [transit_day s p.ra d utc hra.1 hra.2 hl.1 hl.2]
  simp only [hc.ne', if_false, ← h1, riseSetHours]
  rw [if_neg (by norm_num), if_neg (by norm_num)]
  simp only [arccos_one, zero_mul, zero_div, sub_zero, add_zero, pymod_of_mem _ _ t0 t1, toDateTimes]
  exact ⟨hrToDateTime d (s.localTime p.ra d utc), by simp⟩

/-- In UTC the hours are put on the local date: the transit is right exactly if the UTC date of the transit is the local date, and otherwise it is
wrong by whole days. -/
theorem utc_transit (s : Site) (p : EqPos) (ho : Ordinary s p) (d : ℤ) (alt : ℝ) (ha : |alt| ≤ 90) (w : Triple DT)
    (hra : 0 ≤ p.ra ∧ p.ra < 24) (hl : 0 ≤ s.lst0 d ∧ s.lst0 d < 24) (hne : altitudeAt s p 0 ≠ alt)
    (hw : s.riseSetTransitDT p d alt true = .ok w) (rise : DT) (hrise : w.rise = some rise) :
    ∃ transit, w.transit = some transit ∧
      transit.total + ⌊(s.localTime p.ra d false - s.off) / 24⌋ * 86400000000 =
        ⌊(24 * d + s.localTime p.ra d false - s.off) * 3600000000⌋ ∧
      (transit.total = ⌊(24 * d + s.localTime p.ra d false - s.off) * 3600000000⌋ ↔
        0 ≤ s.localTime p.ra d false - s.off ∧ s.localTime p.ra d false - s.off < 24) := by
  obtain ⟨arc, set, transit, a0, a1, hs, ht, _, e1, e2, e3⟩ := rise_set_datetimes s p ho d alt ha true w hra hl hne hw rise hrise
  have key : transit.total + ⌊(s.localTime p.ra d false - s.off) / 24⌋ * 86400000000 =
        ⌊(24 * d + s.localTime p.ra d false - s.off) * 3600000000⌋ := by
    rw [e1, localTime_utc]
    have : (24 * (d : ℝ) + s.localTime p.ra d false - s.off) * 3600000000 =
      (24 * d + pymod (s.localTime p.ra d false - s.off) 24) * 3600000000 +
        ((⌊(s.localTime p.ra d false - s.off) / 24⌋ * 86400000000 : ℤ) : ℝ) := by
      unfold pymod; push_cast; ring
    rw [this, Int.floor_add_intCast]
  refine ⟨transit, ht, key, ?_⟩
  rw [← key]
  constructor
  · intro h
    have h0 : ⌊(s.localTime p.ra d false - s.off) / 24⌋ = 0 := by omega
    rw [Int.floor_eq_zero_iff] at h0
    obtain ⟨u, v⟩ := h0
    exact ⟨by rw [le_div_iff₀ (by norm_num)] at u; linarith, by rw [div_lt_one (by norm_num)] at v; exact v⟩
  · rintro ⟨u, v⟩
    have : ⌊(s.localTime p.ra d false - s.off) / 24⌋ = 0 := by
      rw [Int.floor_eq_zero_iff]
      exact ⟨by positivity, by show _ < _; rw [div_lt_one (by norm_num)]; exact v⟩
    rw [this]; omega

/-! ### Choosing the window -/

/-- With a window on each of the three days, the one returned is the first of the three that has not ended. -/
theorem chooseWindow_first (now : ℤ) (r0 s0 t0 r1 s1 t1 r2 s2 t2 : DT) :
    chooseWindow now ⟨some r0, some s0, some t0⟩ ⟨some r1, some s1, some t1⟩ ⟨some r2, some s2, some t2⟩ =
      .ok (if now < s0.total then ⟨some r0, some s0, some t0⟩ else if now < s1.total then ⟨some r1, some s1, some t1⟩
        else ⟨some r2, some s2, some t2⟩) := by
  unfold chooseWindow before
  simp only
  by_cases h0 : now < s0.total
  · simp [h0]
  · by_cases h1 : now < s1.total
    · simp [h0, h1]
    · simp [h0, h1]

/-- Circumpolar: the next transit of today and tomorrow; never visible: nothing. -/
theorem chooseWindow_always (now : ℤ) (w0 : Triple DT) (t1 t2 : DT) :
    chooseWindow now w0 ⟨none, none, some t1⟩ ⟨none, none, some t2⟩ =
      .ok (if now < t1.total then ⟨none, none, some t1⟩ else ⟨none, none, some t2⟩) := by
  unfold chooseWindow before
  by_cases h0 : now < t1.total <;> simp [h0]

theorem chooseWindow_never (now : ℤ) (w0 w2 : Triple DT) : chooseWindow now w0 ⟨none, none, none⟩ w2 = .ok ⟨none, none, none⟩ := by
  unfold chooseWindow
  simp

/-! ### The verdict -/

/-- What each day's computation gives, in one of three kinds that is the same for all days. -/
theorem day_windows (s : Site) (p : EqPos) (ho : Ordinary s p) (alt : ℝ) (ha : |alt| ≤ 90)
    (hra : 0 ≤ p.ra ∧ p.ra < 24) (hl : ∀ d, 0 ≤ s.lst0 d ∧ s.lst0 d < 24) (hne : altitudeAt s p 0 ≠ alt) (utc : Bool) :
    ((∀ h, alt < altitudeAt s p h) ∧ ∀ d, ∃ t, s.riseSetTransitDT p d alt utc = .ok ⟨none, none, some t⟩) ∨
    ((∀ h, altitudeAt s p h < alt) ∧ ∀ d, s.riseSetTransitDT p d alt utc = .ok ⟨none, none, none⟩) ∨
    (∃ arc, 0 < arc ∧ arc ≤ 12 ∧ (∀ h, |h| ≤ 12 → (alt ≤ altitudeAt s p h ↔ |h| ≤ arc)) ∧
      ∀ d, ∃ rise set transit, s.riseSetTransitDT p d alt utc = .ok ⟨some rise, some set, some transit⟩ ∧
      transit.total = ⌊(24 * d + s.localTime p.ra d utc) * 3600000000⌋ ∧
      rise.total = ⌊(24 * d + s.localTime p.ra d utc - arc / 1.0027378507871321) * 3600000000⌋ ∧
      set.total = ⌊(24 * d + s.localTime p.ra d utc + arc / 1.0027378507871321) * 3600000000⌋) := by
  have hc := cosines_pos s p ho
  by_cases h1 : ∀ h, alt < altitudeAt s p h
  · left
    refine ⟨h1, fun d => ?_⟩
    have := (circumpolar_iff s p ho d alt ha utc).2 h1
    unfold Site.riseSetTransitDT
    rw [this]
    exact ⟨_, rfl⟩
  by_cases h2 : ∀ h, altitudeAt s p h < alt
  · right; left
    refine ⟨h2, fun d => ?_⟩
    have := (never_iff s p ho d alt ha utc).2 h2
    unfold Site.riseSetTransitDT
    rw [this]
    rfl
  · right; right
    have hrise : ∀ d, ∃ w rise, s.riseSetTransitDT p d alt utc = .ok w ∧ w.rise = some rise := by
      intro d
      have n1 := fun h => h1 ((circumpolar_iff s p ho d alt ha utc).1 h)
      have n2 := fun h => h2 ((never_iff s p ho d alt ha utc).1 h)
      unfold Site.riseSetTransitDT
      unfold Site.riseSetTransit riseSetHours at n1 n2 ⊢
      simp only [hc.ne', if_false] at n1 n2 ⊢
      by_cases c1 : coslha (radians alt) (radians s.lat) p.dec < -1
      · simp [c1] at n1
      by_cases c2 : 1 < coslha (radians alt) (radians s.lat) p.dec
      · simp [c1, c2] at n2
      simp only [c1, c2, if_false, toDateTimes]
      exact ⟨_, _, rfl, rfl⟩
    obtain ⟨w, rise, hw, hr⟩ := hrise 0
    obtain ⟨arc, _, _, a0, a1, _, _, hv, _⟩ := rise_set_datetimes s p ho 0 alt ha utc w hra (hl 0) hne hw rise hr
    refine ⟨arc, a0, a1, hv, fun d => ?_⟩
    obtain ⟨w', rise', hw', hr'⟩ := hrise d
    obtain ⟨arc', set', transit', b0, b1, hs, ht, hv', e1, e2, e3⟩ :=
      rise_set_datetimes s p ho d alt ha utc w' hra (hl d) hne hw' rise' hr'
    have hae : arc' = arc := by
      have q1 := (hv' arc (by rw [abs_of_pos a0]; exact a1)).1 ((hv arc (by rw [abs_of_pos a0]; exact a1)).2 (by rw [abs_of_pos a0]))
      have q2 := (hv arc' (by rw [abs_of_pos b0]; exact b1)).1 ((hv' arc' (by rw [abs_of_pos b0]; exact b1)).2 (by rw [abs_of_pos b0]))
      rw [abs_of_pos a0] at q1
      rw [abs_of_pos b0] at q2
      linarith
    subst hae
    refine ⟨rise', set', transit', ?_, e1, e2, e3⟩
    rw [hw']
    cases w'
    simp only at hr' hs ht
    rw [hr', hs, ht]

/-- The altitude at a moment, by the distance from a transit. -/
theorem skyAltitude_from_transit (s : Site) (p : EqPos) (L0 : ℝ) (hu : Uniform s L0) (d : ℤ) (x : ℝ) :
    skyAltitude s p L0 x = altitudeAt s p (rate * (x - (24 * d + s.localTime p.ra d false - s.off))) := by
  obtain ⟨⟨k, hk⟩, _⟩ := localTime_right s L0 hu p.ra d
  unfold skyAltitude altitudeAt
  have : L0 + rate * x = p.ra + rate * (x - (24 * d + s.localTime p.ra d false - s.off)) + 24 * k := by linarith
  rw [this, sidereal_day]

/-- What `onSky` answers is true up to a microsecond, for sites on UTC: if it says yes, the object is above the altitude at the moment or within the
following microsecond. -/
theorem onSky_true (s : Site) (p : EqPos) (ho : Ordinary s p) (alt : ℝ) (ha : |alt| ≤ 90) (L0 : ℝ) (hu : Uniform s L0) (hoff : s.off = 0)
    (hra : 0 ≤ p.ra ∧ p.ra < 24) (hne : altitudeAt s p 0 ≠ alt) (today now : ℤ) (h : s.onSky p today now alt = .ok true) :
    ∃ x, (now : ℝ) ≤ x * 3600000000 ∧ x * 3600000000 ≤ now + 1 ∧ alt ≤ skyAltitude s p L0 x := by
  have hrp := rate_pos
  have hutc : ∀ d, s.localTime p.ra d true = s.localTime p.ra d false := fun d => by
    rw [localTime_utc, hoff, sub_zero]
    exact pymod_of_mem _ _ (localTime_range s p.ra d false).1 (localTime_range s p.ra d false).2
  have hnow : (now : ℝ) / 3600000000 * 3600000000 = now := by ring
  rcases day_windows s p ho alt ha hra hu.range hne true with ⟨hall, hd⟩ | ⟨hall, hd⟩ | ⟨arc, a0, a1, hv, hd⟩
  · refine ⟨now / 3600000000, by rw [hnow], by rw [hnow]; linarith, ?_⟩
    rw [skyAltitude_from_transit s p L0 hu 0]
    exact (hall _).le
  · unfold Site.onSky Site.nextRiseSetTransit at h
    simp only [hd, chooseWindow_never, skyVerdict] at h
    simp at h
  · obtain ⟨r1, s1, t1, w1, _, _, _⟩ := hd today
    obtain ⟨r2, s2, t2, w2, _, _, _⟩ := hd (today + 1)
    obtain ⟨r0, s0, t0, w0, _, _, _⟩ := hd (today - 1)
    have key : ∃ d r s' t, s.riseSetTransitDT p d alt true = .ok ⟨some r, some s', some t⟩ ∧ r.total ≤ now ∧ now ≤ s'.total := by
      unfold Site.onSky Site.nextRiseSetTransit at h
      simp only [w1, w2, w0, chooseWindow_first] at h
      split_ifs at h <;> simp only [skyVerdict, Except.ok.injEq, decide_eq_true_eq] at h
      · exact ⟨_, _, _, _, w0, h.1, h.2⟩
      · exact ⟨_, _, _, _, w1, h.1, h.2⟩
      · exact ⟨_, _, _, _, w2, h.1, h.2⟩
    obtain ⟨d, r, s', t, hw, g1, g2⟩ := key
    obtain ⟨r', s'', t', hw', e1, e2, e3⟩ := hd d
    rw [hw] at hw'
    simp only [Except.ok.injEq, Triple.mk.injEq, Option.some.injEq] at hw'
    obtain ⟨rfl, rfl, rfl⟩ := hw'
    rw [e2] at g1
    rw [e3] at g2
    rw [hutc] at g1 g2
    generalize hT : 24 * (d : ℝ) + s.localTime p.ra d false = T at *
    have q1 := Int.lt_floor_add_one ((T - arc / 1.0027378507871321) * 3600000000)
    have q2 := Int.floor_le ((T + arc / 1.0027378507871321) * 3600000000)
    have q3 : ((⌊(T - arc / 1.0027378507871321) * 3600000000⌋ : ℤ) : ℝ) ≤ now := by exact_mod_cast g1
    have q4 : (now : ℝ) ≤ ((⌊(T + arc / 1.0027378507871321) * 3600000000⌋ : ℤ) : ℝ) := by exact_mod_cast g2
    have hA : arc / 1.0027378507871321 = arc / rate := rfl
    rw [hA] at q1 q2 q3 q4
    have hB : rate * (arc / rate) = arc := by field_simp
    have hB0 : 0 < arc / rate := by positivity
    by_cases hin : T - arc / rate ≤ now / 3600000000
    · refine ⟨now / 3600000000, by rw [hnow], by rw [hnow]; linarith, ?_⟩
      rw [skyAltitude_from_transit s p L0 hu d, hoff, sub_zero, hT]
      have b : |rate * ((now : ℝ) / 3600000000 - T)| ≤ arc := by
        have u1 : (now : ℝ) / 3600000000 ≤ T + arc / rate := by rw [div_le_iff₀ (by norm_num)]; linarith
        rw [abs_le]; constructor <;> nlinarith
      exact (hv _ (b.trans a1)).2 b
    · refine ⟨T - arc / rate, ?_, ?_, ?_⟩
      · have := not_le.1 hin; rw [div_lt_iff₀ (by norm_num)] at this; linarith
      · linarith
      · rw [skyAltitude_from_transit s p L0 hu d, hoff, sub_zero, hT]
        have e : rate * (T - arc / rate - T) = -arc := by rw [show T - arc / rate - T = -(arc / rate) by ring, mul_neg, hB]
        rw [e]
        exact (hv _ (by rw [abs_neg, abs_of_pos a0]; exact a1)).2 (by rw [abs_neg, abs_of_pos a0])

/-- If the object is above the altitude and has not more than a microsecond to go until it sets from the first transit of yesterday, today or
tomorrow, `onSky` says yes (sites on UTC). -/
theorem onSky_first_transits (s : Site) (p : EqPos) (ho : Ordinary s p) (alt : ℝ) (ha : |alt| ≤ 90) (L0 : ℝ) (hu : Uniform s L0)
    (hoff : s.off = 0) (hra : 0 ≤ p.ra ∧ p.ra < 24) (hne : altitudeAt s p 0 ≠ alt) (today now d : ℤ)
    (hd3 : today - 1 ≤ d ∧ d ≤ today + 1)
    (hup : ∀ x : ℝ, (now : ℝ) ≤ x * 3600000000 → x * 3600000000 ≤ now + 1 → alt ≤ skyAltitude s p L0 x)
    (hnear : |(now : ℝ) / 3600000000 - (24 * d + s.localTime p.ra d false)| < 11.9) :
    s.onSky p today now alt = .ok true := by
  have hrp := rate_pos
  have hutc : ∀ d, s.localTime p.ra d true = s.localTime p.ra d false := fun d => by
    rw [localTime_utc, hoff, sub_zero]
    exact pymod_of_mem _ _ (localTime_range s p.ra d false).1 (localTime_range s p.ra d false).2
  have hnow : (now : ℝ) / 3600000000 * 3600000000 = now := by ring
  have hup0 := hup (now / 3600000000) (by rw [hnow]) (by rw [hnow]; linarith)
  have hup1 := hup ((now + 1) / 3600000000) (by ring_nf; linarith) (by ring_nf; linarith)
  rcases day_windows s p ho alt ha hra hu.range hne true with ⟨hall, hd⟩ | ⟨hall, hd⟩ | ⟨arc, a0, a1, hv, hd⟩
  · obtain ⟨t1, w1⟩ := hd today
    obtain ⟨t2, w2⟩ := hd (today + 1)
    obtain ⟨t0, w0⟩ := hd (today - 1)
    unfold Site.onSky Site.nextRiseSetTransit
    simp only [w1, w2, w0, chooseWindow_always]
    split_ifs <;> simp [skyVerdict]
  · rw [skyAltitude_from_transit s p L0 hu 0] at hup0
    exact absurd hup0 (not_le.2 (hall _))
  · have hle : ∀ d : ℤ, 24 * (d : ℝ) + s.localTime p.ra d false < 24 * ((d + 1 : ℤ) : ℝ) + s.localTime p.ra (d + 1) false := fun d => by
      have u := (localTime_range s p.ra d false).2
      have v := (localTime_range s p.ra (d + 1) false).1
      push_cast; linarith
    -- the window of day d contains now
    have inWin : ∀ r s' t, s.riseSetTransitDT p d alt true = .ok ⟨some r, some s', some t⟩ → r.total ≤ now ∧ now < s'.total := by
      intro r s' t hw
      obtain ⟨r', s'', t', hw', e1, e2, e3⟩ := hd d
      rw [hw] at hw'
      simp only [Except.ok.injEq, Triple.mk.injEq, Option.some.injEq] at hw'
      obtain ⟨rfl, rfl, rfl⟩ := hw'
      rw [e2, e3, hutc]
      rw [skyAltitude_from_transit s p L0 hu d, hoff, sub_zero] at hup0 hup1
      generalize hT : 24 * (d : ℝ) + s.localTime p.ra d false = T at *
      obtain ⟨n1, n2⟩ := abs_lt.1 hnear
      have hr1 : rate < 1.003 := by unfold rate; norm_num
      have c1 : |rate * ((now : ℝ) / 3600000000 - T)| ≤ 12 := by
        rw [abs_mul, abs_of_pos hrp]
        nlinarith [abs_nonneg ((now : ℝ) / 3600000000 - T)]
      have c2 : |rate * (((now : ℝ) + 1) / 3600000000 - T)| ≤ 12 := by
        have e : ((now : ℝ) + 1) / 3600000000 - T = ((now : ℝ) / 3600000000 - T) + 1 / 3600000000 := by ring
        have : |((now : ℝ) + 1) / 3600000000 - T| ≤ 11.95 := by
          rw [e, abs_le]; constructor <;> linarith
        rw [abs_mul, abs_of_pos hrp]
        nlinarith [abs_nonneg (((now : ℝ) + 1) / 3600000000 - T)]
      have b1 := (hv _ c1).1 hup0
      have b2 := (hv _ c2).1 hup1
      have hB : rate * (arc / rate) = arc := by field_simp
      have hA : arc / 1.0027378507871321 = arc / rate := rfl
      rw [hA]
      have b1' : T - arc / rate ≤ (now : ℝ) / 3600000000 := by
        have := (abs_le.1 b1).1
        rw [← hB] at this
        have : rate * (-(arc / rate)) ≤ rate * ((now : ℝ) / 3600000000 - T) := by linarith
        have := le_of_mul_le_mul_left this hrp
        linarith
      have b2' : ((now : ℝ) + 1) / 3600000000 ≤ T + arc / rate := by
        have := (abs_le.1 b2).2
        rw [← hB] at this
        have := le_of_mul_le_mul_left this hrp
        linarith
      constructor
      · have : ((⌊(T - arc / rate) * 3600000000⌋ : ℤ) : ℝ) ≤ now := by
          have h1 := Int.floor_le ((T - arc / rate) * 3600000000)
          rw [le_div_iff₀ (by norm_num)] at b1'
          linarith
        exact_mod_cast this
      · have : now + 1 ≤ ⌊(T + arc / rate) * 3600000000⌋ := by
          rw [Int.le_floor]
          push_cast
          rw [div_le_iff₀ (by norm_num)] at b2'
          linarith
        omega
    -- earlier windows rise earlier
    have mono : ∀ d r s' t r2 s2 t2, s.riseSetTransitDT p d alt true = .ok ⟨some r, some s', some t⟩ →
        s.riseSetTransitDT p (d + 1) alt true = .ok ⟨some r2, some s2, some t2⟩ → r.total ≤ r2.total := by
      intro d r s' t r2 s2 t2 hw hw2
      obtain ⟨r', s'', t', hw', e1, e2, e3⟩ := hd d
      rw [hw] at hw'
      simp only [Except.ok.injEq, Triple.mk.injEq, Option.some.injEq] at hw'
      obtain ⟨rfl, rfl, rfl⟩ := hw'
      obtain ⟨r', s'', t', hw', f1, f2, f3⟩ := hd (d + 1)
      rw [hw2] at hw'
      simp only [Except.ok.injEq, Triple.mk.injEq, Option.some.injEq] at hw'
      obtain ⟨rfl, rfl, rfl⟩ := hw'
      rw [e2, f2, hutc, hutc]
      apply Int.floor_le_floor
      have := hle d
      linarith
    obtain ⟨r1, s1, t1, w1, _, _, _⟩ := hd today
    obtain ⟨r2, s2, t2, w2, _, _, _⟩ := hd (today + 1)
    obtain ⟨r0, s0, t0, w0, _, _, _⟩ := hd (today - 1)
    have m1 := mono today _ _ _ _ _ _ w1 w2
    have m0 := mono (today - 1) _ _ _ _ _ _ w0 (by rw [sub_add_cancel]; exact w1)
    unfold Site.onSky Site.nextRiseSetTransit
    simp only [w1, w2, w0, chooseWindow_first]
    have hcase : d = today - 1 ∨ d = today ∨ d = today + 1 := by omega
    rcases hcase with rfl | rfl | rfl
    · obtain ⟨g1, g2⟩ := inWin _ _ _ w0
      rw [if_pos g2]
      simp [skyVerdict, g1, g2.le]
    · obtain ⟨g1, g2⟩ := inWin _ _ _ w1
      split_ifs with c0
      · simp [skyVerdict, m0.trans g1, c0.le]
      · simp [skyVerdict, g1, g2.le]
    · obtain ⟨g1, g2⟩ := inWin _ _ _ w2
      split_ifs with c0 c1
      · simp [skyVerdict, (m0.trans m1).trans g1, c0.le]
      · simp [skyVerdict, m1.trans g1, c1.le]
      · simp [skyVerdict, g1, g2.le]

/-- On a day with two transits (there is one every year for each object) the second is missed: at that very transit `onSky` says no for every object
that rises and sets. -/
theorem second_transit_missed (s : Site) (p : EqPos) (ho : Ordinary s p) (alt : ℝ) (ha : |alt| ≤ 90) (L0 : ℝ) (hu : Uniform s L0)
    (hoff : s.off = 0) (hra : 0 ≤ p.ra ∧ p.ra < 24) (today now : ℤ) (hup : alt < altitudeAt s p 0) (hdown : ∃ h, altitudeAt s p h < alt)
    (htwo : s.localTime p.ra today false + 24 / rate < 24)
    (hnow : now = ⌊(24 * today + s.localTime p.ra today false + 24 / rate) * 3600000000⌋) :
    s.onSky p today now alt = .ok false ∧
    skyAltitude s p L0 (24 * today + s.localTime p.ra today false + 24 / rate) = altitudeAt s p 0 := by
  have hrp := rate_pos
  have hutc : ∀ d, s.localTime p.ra d true = s.localTime p.ra d false := fun d => by
    rw [localTime_utc, hoff, sub_zero]
    exact pymod_of_mem _ _ (localTime_range s p.ra d false).1 (localTime_range s p.ra d false).2
  have hr1 : rate < 1.003 := by unfold rate; norm_num
  have hr2 : 1 < rate := by unfold rate; norm_num
  have hi : 23.9 < 24 / rate := by rw [lt_div_iff₀ hrp]; linarith
  have hi2 : 24 / rate < 24 := by rw [div_lt_iff₀ hrp]; linarith
  constructor
  · rcases day_windows s p ho alt ha hra hu.range (ne_of_gt hup) true with ⟨hall, hd⟩ | ⟨hall, hd⟩ | ⟨arc, a0, a1, hv, hd⟩
    · obtain ⟨h, hh⟩ := hdown
      exact absurd (hall h) (not_lt.2 hh.le)
    · exact absurd (hall 0) (not_lt.2 hup.le)
    · obtain ⟨r1, s1, t1, w1, _, _, f1⟩ := hd today
      obtain ⟨r2, s2, t2, w2, _, e2, _⟩ := hd (today + 1)
      obtain ⟨r0, s0, t0, w0, _, _, f0⟩ := hd (today - 1)
      unfold Site.onSky Site.nextRiseSetTransit
      simp only [w1, w2, w0, chooseWindow_first]
      rw [hutc] at f1 e2 f0
      have hA : arc / 1.0027378507871321 = arc / rate := rfl
      rw [hA] at f1 e2 f0
      have q : arc / rate ≤ 12 / rate := div_le_div_of_nonneg_right a1 hrp.le
      have q12 : 12 / rate = 24 / rate / 2 := by ring
      have T0 := (localTime_right s L0 hu p.ra (today - 1)).2.2.1
      have T00 := (localTime_right s L0 hu p.ra today).2.1
      obtain ⟨⟨k1, hk1⟩, _⟩ := localTime_right s L0 hu p.ra today
      obtain ⟨⟨k2, hk2⟩, t2n, _⟩ := localTime_right s L0 hu p.ra (today + 1)
      have hm : rate * (24 * ((today + 1 : ℤ) : ℝ) + s.localTime p.ra (today + 1) false - (24 * today + s.localTime p.ra today false)) =
          24 * ((k2 - k1 : ℤ) : ℝ) := by push_cast at *; linarith
      have hm2 : 2 ≤ k2 - k1 := by
        have hgap : 24 / rate < 24 * ((today + 1 : ℤ) : ℝ) + s.localTime p.ra (today + 1) false - (24 * today + s.localTime p.ra today false) := by
          push_cast; linarith
        have := mul_lt_mul_of_pos_left hgap hrp
        rw [hm, mul_div_cancel₀ _ hrp.ne'] at this
        have h1 : (1 : ℝ) < ((k2 - k1 : ℤ) : ℝ) := by linarith
        have h2 : 1 < k2 - k1 := by exact_mod_cast h1
        omega
      have hT2 : 24 * (today : ℝ) + s.localTime p.ra today false + 2 * (24 / rate) ≤
          24 * ((today + 1 : ℤ) : ℝ) + s.localTime p.ra (today + 1) false := by
        have h1 : (2 : ℝ) ≤ ((k2 - k1 : ℤ) : ℝ) := by exact_mod_cast hm2
        have h2 : rate * (2 * (24 / rate)) ≤ rate * (24 * ((today + 1 : ℤ) : ℝ) + s.localTime p.ra (today + 1) false -
            (24 * today + s.localTime p.ra today false)) := by
          rw [hm, show rate * (2 * (24 / rate)) = 48 by field_simp; norm_num]; linarith
        have := le_of_mul_le_mul_left h2 hrp
        linarith
      have n0 : ¬ now < s0.total := by
        rw [hnow, f0, not_lt]
        apply Int.floor_le_floor
        push_cast
        linarith
      have n1 : ¬ now < s1.total := by
        rw [hnow, f1, not_lt]
        apply Int.floor_le_floor
        linarith
      have n2 : now < r2.total := by
        rw [hnow, e2]
        apply Int.lt_iff_add_one_le.2
        rw [← Int.floor_add_one]
        apply Int.floor_le_floor
        nlinarith
      rw [if_neg n0, if_neg n1]
      simp only [skyVerdict, Except.ok.injEq, decide_eq_false_iff_not, not_and_or, not_le]
      exact Or.inl n2
  · rw [skyAltitude_from_transit s p L0 hu today, hoff]
    unfold altitudeAt
    rw [show p.ra + rate * (24 * (today : ℝ) + s.localTime p.ra today false + 24 / rate - (24 * today + s.localTime p.ra today false - 0)) =
      p.ra + 0 + 24 * ((1 : ℤ) : ℝ) by push_cast; field_simp; ring, sidereal_day]

/-! ### Concrete cases -/

/-- The object on the equator seen from the equator. -/
theorem equator_altitude (s : Site) (hs : s.lat = 0) (ra h : ℝ) (hh : |h| ≤ 12) : altitudeAt s ⟨ra, 0, none, none⟩ h = 90 - 15 * |h| := by
  have hpi := pi_pos
  unfold altitudeAt
  rw [toHorizontal_alt, hs]
  have hH : hourAngle (ra + h) ra = π * h / 12 := by unfold hourAngle; ring
  have hr : radians 0 = 0 := by unfold radians; simp
  simp only [hH, hr, altRad, sin_zero, cos_zero, zero_mul, one_mul, zero_add]
  have ha : |π * h / 12| = π * |h| / 12 := by
    rw [abs_div, abs_mul, abs_of_pos hpi, abs_of_pos (by norm_num : (0:ℝ) < 12)]
  rw [arcsin_cos_abs _ (by rw [ha, div_le_iff₀ (by norm_num)]; nlinarith), ha]
  unfold degrees
  field_simp
  ring

/-- A site on the equator whose zone is `off` hours from UTC, with sidereal time 0 at the beginning of day 0 UTC. -/
noncomputable def equatorSite (off : ℝ) : Site := ⟨0, fun d => pymod (0 + rate * (24 * d - off)) 24, off⟩

theorem equatorSite_uniform (off : ℝ) : Uniform (equatorSite off) 0 := fun _ => rfl

/-- A case of `second_transit_missed`: the object of right ascension 0 at 23:56 of day 0. -/
theorem missed_example :
    (equatorSite 0).onSky ⟨0, 0, none, none⟩ 0 ⌊(24 / rate) * 3600000000⌋ 0 = .ok false ∧
    skyAltitude (equatorSite 0) ⟨0, 0, none, none⟩ 0 (24 / rate) = 90 := by
  have hrp := rate_pos
  have hr2 : 1 < rate := by unfold rate; norm_num
  have ho : Ordinary (equatorSite 0) ⟨0, 0, none, none⟩ := by
    constructor
    · simp [equatorSite]
    · simp [pi_pos]
  have hlt : (equatorSite 0).localTime 0 0 false = 0 := by
    unfold Site.localTime equatorSite pymod; simp
  have h := second_transit_missed (equatorSite 0) ⟨0, 0, none, none⟩ ho 0 (by norm_num) 0 (equatorSite_uniform 0) rfl (by norm_num) 0
    ⌊(24 / rate) * 3600000000⌋
    (by rw [equator_altitude _ rfl _ _ (by norm_num)]; norm_num)
    ⟨12, by rw [equator_altitude _ rfl _ _ (by norm_num)]; norm_num⟩
    (by show (equatorSite 0).localTime 0 0 false + 24 / rate < 24; rw [hlt, zero_add, div_lt_iff₀ hrp]; linarith)
    (by show _ = ⌊(24 * ((0 : ℤ) : ℝ) + (equatorSite 0).localTime 0 0 false + 24 / rate) * 3600000000⌋; rw [hlt]; simp)
  refine ⟨h.1, ?_⟩
  have h2 := h.2
  rw [equator_altitude _ rfl _ _ (by norm_num)] at h2
  simp only [hlt, Int.cast_zero, mul_zero, zero_add, abs_zero, sub_zero] at h2
  exact h2

/-- A case of `utc_transit`: seven hours west of Greenwich, an object that transits at 20 hours local time is reported a whole day early. -/
theorem utc_day_counterexample (ra : ℝ) (hra : 0 ≤ ra ∧ ra < 24) (ht : (equatorSite (-7)).localTime ra 0 false = 20) :
    ∃ w transit, (equatorSite (-7)).riseSetTransitDT ⟨ra, 0, none, none⟩ 0 0 true = .ok w ∧ w.transit = some transit ∧
      transit.total + 86400000000 = ⌊(20 - (-7 : ℝ)) * 3600000000⌋ := by
  have ho : Ordinary (equatorSite (-7)) ⟨ra, 0, none, none⟩ := by
    constructor
    · simp [equatorSite]
    · simp [pi_pos]
  have alt0 : altitudeAt (equatorSite (-7)) ⟨ra, 0, none, none⟩ 0 = 90 := by
    rw [equator_altitude _ rfl _ _ (by norm_num)]; norm_num
  have alt12 : altitudeAt (equatorSite (-7)) ⟨ra, 0, none, none⟩ 12 = -90 := by
    rw [equator_altitude _ rfl _ _ (by norm_num)]; norm_num
  have hl : ∀ d, 0 ≤ (equatorSite (-7)).lst0 d ∧ (equatorSite (-7)).lst0 d < 24 := (equatorSite_uniform (-7)).range
  rcases day_windows (equatorSite (-7)) ⟨ra, 0, none, none⟩ ho 0 (by norm_num) hra hl (by rw [alt0]; norm_num) true with
    ⟨hall, _⟩ | ⟨hall, _⟩ | ⟨arc, a0, a1, hv, hd⟩
  · have := hall 12; rw [alt12] at this; norm_num at this
  · have := hall 0; rw [alt0] at this; norm_num at this
  · obtain ⟨r, s, t, hw, _⟩ := hd 0
    obtain ⟨t', ht', key, _⟩ := utc_transit (equatorSite (-7)) ⟨ra, 0, none, none⟩ ho 0 0 (by norm_num) _ hra (hl 0) (by rw [alt0]; norm_num)
      hw r rfl
    refine ⟨_, t', hw, ht', ?_⟩
    have hof : (equatorSite (-7)).off = -7 := rfl
    simp only [ht, hof] at key
    have hf : ⌊((20 : ℝ) - -7) / 24⌋ = 1 := by
      rw [Int.floor_eq_iff]; norm_num
    rw [hf] at key
    simpa using key

/-- Such an object exists. -/
theorem utc_day_example : ∃ ra, 0 ≤ ra ∧ ra < 24 ∧ (equatorSite (-7)).localTime ra 0 false = 20 := by
  have hrp := rate_pos
  have l0 := (equatorSite_uniform (-7)).range 0
  refine ⟨pymod ((equatorSite (-7)).lst0 0 + rate * 20) 24, pymod_nonneg _ _ (by norm_num), pymod_lt _ _ (by norm_num), ?_⟩
  obtain ⟨k, hk⟩ := pymod_congr ((equatorSite (-7)).lst0 0 + rate * 20) 24
  unfold Site.localTime
  simp only [Bool.false_eq_true, if_false]
  rw [hk, show (equatorSite (-7)).lst0 0 + rate * 20 + 24 * (k : ℝ) - (equatorSite (-7)).lst0 0 = rate * 20 + 24 * k by ring,
    pymod_add _ _ (by norm_num), pymod_of_mem _ _ (by positivity) (by unfold rate; norm_num)]
  field_simp

end Verif.SiteRise

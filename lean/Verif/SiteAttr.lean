import Verif.AngleProps
import Verif.CoordSky
import Mathlib.Tactic.NormNum

/-!
# Observing sites: construction and attributes (astropysics/obstools.py 690-793) (C162)

The two angles of a site are `AngularCoordinate` objects, and an object handed to the constructor or assigned is kept, not copied: the
model therefore has a store of angle objects, and a site holds references into it.  The angles themselves are those of `Verif.Angle`
(real numbers for doubles).  `dateutil` is assumed to be present (obstools.py 71-73); time zone names are looked up by a parameter.
-/

namespace Verif.SiteAttr

noncomputable section

open Verif.Angle Real

/-- The angle objects alive: `obj i` is the object with reference `i`, `next` the next unused reference. -/
structure Store where
  obj : ℕ → AC
  next : ℕ

/-- The object with reference `i` gets new contents. -/
def Store.put (s : Store) (i : ℕ) (a : AC) : Store := { s with obj := Function.update s.obj i a }

/-- A new object. -/
def Store.new (s : Store) (a : AC) : Store × ℕ := (⟨Function.update s.obj s.next a, s.next + 1⟩, s.next)

/-- What may be given for an angle: None, an angle object, a number of degrees, or a sequence of numbers (strings are not modelled). -/
inductive Arg
  | none
  | angle (i : ℕ)
  | num (x : ℝ)
  | seq (xs : List ℝ)

/-- `AngularCoordinate(val)` or `AngularCoordinate(*val)` for what is not an angle (obstools.py 738-741, 763-766 with the constructor
coordsys.py 148-256): None is the angle 0, the second element of a sequence is the flag `sghms`, ignored for a number, the third the
range, for which a number is no sequence (TypeError), and there are at most four arguments. -/
def fresh : Arg → Except Err AC
  | .none => .ok ⟨0, Option.none⟩
  | .num x => construct x .none
  | .seq [] => .ok ⟨0, Option.none⟩
  | .seq [x] => construct x .none
  | .seq [x, _] => construct x .none
  | .seq _ => .error .type
  | .angle _ => .error .type

/-- `_setLatitude`, `_setLongitude` (obstools.py 733-741, 758-766): the reference that becomes the attribute. -/
def bind (s : Store) : Arg → Except Err (Store × ℕ)
  | .angle i => .ok (s, i)
  | x =>
    match fresh x with
    | .ok a => .ok (s.new a)
    | .error e => .error e

/-- A time zone: a fixed offset from UTC in seconds, or one known to the system by name. -/
inductive Zone
  | fixed (secs : ℤ)
  | named (name : String)
  deriving DecidableEq

/-- The `tz` argument: None, a number of hours, or a name. -/
inductive TzArg
  | none
  | hours (x : ℝ)
  | name (s : String)

/-- The altitude argument: None, a number, or something `float` refuses. -/
inductive AltArg
  | none
  | num (x : ℝ)
  | bad

/-- A `Site`: references to the angles, altitude, time zone, name. -/
structure Site where
  lat : ℕ
  long : ℕ
  alt : Option ℝ
  tz : Zone
  name : String

/-- `np.round`: to the nearest integer, halves to the even one. -/
def npRound (x : ℝ) : ℤ :=
  if x - ⌊x⌋ < 1 / 2 then ⌊x⌋ else if 1 / 2 < x - ⌊x⌋ then ⌊x⌋ + 1 else if Even ⌊x⌋ then ⌊x⌋ else ⌊x⌋ + 1

/-- `_setAltitude`, obstools.py 771-775. -/
def altOf : AltArg → Except Err (Option ℝ)
  | .none => .ok Option.none
  | .num x => .ok (some x)
  | .bad => .error .value

/-- The time zone chosen by `Site.__init__`, obstools.py 712-719, 726-728; `gettz` tells which names the system knows. -/
def zoneOf (gettz : String → Bool) (long : AC) : TzArg → Except Err Zone
  | .none => .ok (.fixed (npRound (degrees long / 15) * 60 * 60))
  | .name s => if gettz s then .ok (.named s) else .error .value
  | .hours x => .ok (.fixed (pyint (x * 60 * 60)))

/-- The last part of `Site.__init__` (obstools.py 711-723). -/
def finish (gettz : String → Bool) (i j : ℕ) (b : AC) (alt : AltArg) (tz : TzArg) (name : Option String) : Except Err Site :=
  match altOf alt with
  | .error e => .error e
  | .ok al =>
    match zoneOf gettz b tz with
    | .error e => .error e
    | .ok z => .ok ⟨i, j, al, z, name.getD "Default Site"⟩

/-- `Site.__init__(lat,long,alt,tz,name)`, obstools.py 700-723.  The store afterwards also in case of an exception. -/
def mk (gettz : String → Bool) (s : Store) (lat long : Arg) (alt : AltArg) (tz : TzArg) (name : Option String) : Store × Except Err Site :=
  match bind s lat with
  | .error e => (s, .error e)
  | .ok (s1, i) =>
    match setRange (s1.obj i) (.pair (-90) 90) with
    | (a, some e) => (s1.put i a, .error e)
    | (a, none) =>
      match bind (s1.put i a) long with
      | .error e => (s1.put i a, .error e)
      | .ok (s3, j) =>
        match setRange (s3.obj j) (.pair (-180) 180) with
        | (b, some e) => (s3.put j b, .error e)
        | (b, none) => (s3.put j b, finish gettz i j b alt tz name)

/-- `site.latitude = val`, obstools.py 733-741: no range is imposed. -/
def assignLat (s : Store) (site : Site) (val : Arg) : Store × Except Err Site :=
  match bind s val with
  | .error e => (s, .error e)
  | .ok (s', i) => (s', .ok { site with lat := i })

/-- `site.longitude = val`, obstools.py 758-766. -/
def assignLong (s : Store) (site : Site) (val : Arg) : Store × Except Err Site :=
  match bind s val with
  | .error e => (s, .error e)
  | .ok (s', i) => (s', .ok { site with long := i })

/-- `site.geocentriclat` (obstools.py 744-746): the angle, in radians. -/
def geocentric (s : Store) (site : Site) : ℝ := CoordSky.toGeocentric (s.obj site.lat).val

/-- `site.geocentriclat = val` for a number of degrees (obstools.py 747-750): a new object, without range. -/
def assignGeocentric (s : Store) (site : Site) (deg : ℝ) : Store × Site :=
  let r := s.new ⟨CoordSky.toGeographic (rad deg), none⟩
  (r.1, { site with lat := r.2 })

/-- Assignments to the attributes of angle objects, by whoever holds a reference. -/
def runOps (s : Store) : List (ℕ × Op) → Store
  | [] => s
  | (i, op) :: ops => runOps (s.put i (step (s.obj i) op).1) ops

/-! ## Specification -/

/-- The number of degrees an argument stands for, as the documentation of the constructor has it for the forms that work. -/
def Arg.deg (s : Store) : Arg → Option ℝ
  | .none => some 0
  | .angle i => some (degrees (s.obj i))
  | .num x => some x
  | .seq [] => some 0
  | .seq [x] => some x
  | .seq [x, _] => some x
  | .seq _ => Option.none

/-- The references in an argument exist. -/
def Arg.Known (s : Store) : Arg → Prop
  | .angle i => i < s.next
  | _ => True

/-- The two arguments are one and the same object. -/
def Same (x y : Arg) : Prop := ∃ i, x = .angle i ∧ y = .angle i

/-- An assignment that does not replace the range. -/
def Keeps : Op → Prop
  | .range _ => False
  | _ => True

/-! ## Helpers -/

def latR : Range := ⟨rad (-90), rad 90, none⟩
def longR : Range := ⟨rad (-180), rad 180, some (rad 0)⟩
def wrapLong (v : ℝ) : ℝ := pymod (v - rad (-180)) (rad 180 - rad (-180)) + rad (-180)

theorem rad_inj {a b : ℝ} (h : rad a = rad b) : a = b := le_antisymm (rad_le.1 h.le) (rad_le.1 h.ge)

theorem rad_degrees (a : AC) : rad (degrees a) = a.val := by
  have := Real.pi_pos.ne'
  unfold degrees rad; field_simp

theorem degrees_le {a : AC} {x : ℝ} : degrees a ≤ x ↔ a.val ≤ rad x := by rw [← rad_le, rad_degrees]
theorem le_degrees {a : AC} {x : ℝ} : x ≤ degrees a ↔ rad x ≤ a.val := by rw [← rad_le, rad_degrees]
theorem degrees_lt {a : AC} {x : ℝ} : degrees a < x ↔ a.val < rad x := by rw [← rad_lt, rad_degrees]

theorem setLat_eq (a : AC) : setRange a (.pair (-90) 90) =
    if rad (-90) ≤ a.val ∧ a.val ≤ rad 90 then (⟨a.val, some latR⟩, none) else (a, some .value) := by
  have h1 : ((90 : ℝ) - -90 = 360) = False := by norm_num
  have h2 : ((-90 : ℝ) > 90) = False := by norm_num
  simp only [setRange, RangeArg.toTriple, h1, h2, if_false, installRange, Option.map_none, checkRange, latR]
  by_cases h : rad (-90) ≤ a.val ∧ a.val ≤ rad 90
  · simp [h]
  · simp [h]

theorem setLong_eq (a : AC) : setRange a (.pair (-180) 180) = (⟨wrapLong a.val, some longR⟩, none) := by
  have h1 : ((180 : ℝ) - -180 = 360) = True := by norm_num
  have h2 : ((-180 : ℝ) > 180) = False := by norm_num
  have h3 : rad 180 - rad (-180) ≠ 0 := by
    have := rad_lt.2 (show (-180 : ℝ) < 180 by norm_num); linarith
  simp only [setRange, RangeArg.toTriple, h1, h2, if_false, if_true, installRange, Option.map_some, checkRange, longR, rad_0, lt_irrefl, h3, wrapLong]

theorem wrapLong_spec (v : ℝ) (r : Option Range) : ∃ k : ℤ,
    degrees ⟨wrapLong v, r⟩ = degrees ⟨v, r⟩ + 360 * k ∧ -180 ≤ degrees ⟨wrapLong v, r⟩ ∧ degrees ⟨wrapLong v, r⟩ < 180 := by
  have hw : 0 < rad 180 - rad (-180) := by
    have := rad_lt.2 (show (-180 : ℝ) < 180 by norm_num); linarith
  have h0 := pymod_nonneg (x := v - rad (-180)) hw
  have h1 := pymod_lt (x := v - rad (-180)) hw
  refine ⟨-⌊(v - rad (-180)) / (rad 180 - rad (-180))⌋, ?_, ?_, ?_⟩
  · have hp := Real.pi_pos.ne'
    unfold degrees wrapLong pymod
    generalize ⌊(v - rad (-180)) / (rad 180 - rad (-180))⌋ = n
    unfold rad
    push_cast
    field_simp
    ring
  · rw [le_degrees]; show rad (-180) ≤ wrapLong v; unfold wrapLong; linarith
  · rw [degrees_lt]; show wrapLong v < rad 180; unfold wrapLong; linarith

/-- What `bind` does, for an argument that is not an angle object or is one. -/
theorem bind_ok {s s' : Store} {x : Arg} {i : ℕ} (h : bind s x = .ok (s', i)) (hk : x.Known s) :
    x.deg s = some (degrees (s'.obj i)) ∧ (∀ k < s.next, s'.obj k = s.obj k) ∧ s.next ≤ s'.next ∧ i < s'.next ∧
    (∀ k, x = .angle k → s' = s ∧ i = k) ∧ ((∀ k, x ≠ .angle k) → i = s.next ∧ (s'.obj i).range = none) := by
  have hz : degrees ⟨0, none⟩ = 0 := by unfold degrees; simp
  have key : ∀ a : AC, s.new a = (s', i) → a.range = none → (∀ k < s.next, s'.obj k = s.obj k) ∧ s.next ≤ s'.next ∧ i < s'.next ∧
      i = s.next ∧ (s'.obj i) = a := by
    intro a e ha
    unfold Store.new at e
    obtain ⟨e1, e2⟩ := Prod.mk.inj e
    subst e1; subst e2
    refine ⟨fun k hk => ?_, Nat.le_succ _, Nat.lt_succ_self _, rfl, ?_⟩
    · simp [Function.update, hk.ne]
    · simp [Function.update]
  cases x with
  | angle k =>
    simp only [bind, Except.ok.injEq, Prod.mk.injEq] at h
    obtain ⟨rfl, rfl⟩ := h
    refine ⟨rfl, fun _ _ => rfl, le_refl _, hk, fun k' e => ⟨rfl, by injection e⟩, fun e => absurd rfl (e k)⟩
  | none =>
    simp only [bind, fresh, Except.ok.injEq] at h
    obtain ⟨h1, h2, h3, h4, h5⟩ := key _ h rfl
    refine ⟨by rw [h5, hz]; rfl, h1, h2, h3, fun k e => (by cases e), fun _ => ⟨h4, by rw [h5]⟩⟩
  | num x =>
    simp only [bind, fresh, construct, setRange, installRange, checkRange, Except.ok.injEq] at h
    obtain ⟨h1, h2, h3, h4, h5⟩ := key _ h rfl
    refine ⟨by rw [h5, degrees_rad]; rfl, h1, h2, h3, fun k e => (by cases e), fun _ => ⟨h4, by rw [h5]⟩⟩
  | seq xs =>
    match xs, h with
    | [], h =>
      simp only [bind, fresh, Except.ok.injEq] at h
      obtain ⟨h1, h2, h3, h4, h5⟩ := key _ h rfl
      refine ⟨by rw [h5, hz]; rfl, h1, h2, h3, fun k e => (by cases e), fun _ => ⟨h4, by rw [h5]⟩⟩
    | [x], h =>
      simp only [bind, fresh, construct, setRange, installRange, checkRange, Except.ok.injEq] at h
      obtain ⟨h1, h2, h3, h4, h5⟩ := key _ h rfl
      refine ⟨by rw [h5, degrees_rad]; rfl, h1, h2, h3, fun k e => (by cases e), fun _ => ⟨h4, by rw [h5]⟩⟩
    | [x, _], h =>
      simp only [bind, fresh, construct, setRange, installRange, checkRange, Except.ok.injEq] at h
      obtain ⟨h1, h2, h3, h4, h5⟩ := key _ h rfl
      refine ⟨by rw [h5, degrees_rad]; rfl, h1, h2, h3, fun k e => (by cases e), fun _ => ⟨h4, by rw [h5]⟩⟩
    | _ :: _ :: _ :: _, h => simp [bind, fresh] at h

theorem bind_err {s : Store} {x : Arg} {e : Err} (h : bind s x = .error e) : x.deg s = none ∧ e = .type := by
  cases x with
  | angle k => cases h
  | none => cases h
  | num x => cases h
  | seq xs =>
    match xs, h with
    | [], h => cases h
    | [x], h => cases h
    | [x, _], h => cases h
    | _ :: _ :: _ :: _, h =>
      simp only [bind, fresh, Except.error.injEq] at h
      exact ⟨rfl, h.symm⟩

theorem put_self (s : Store) (i : ℕ) (a : AC) : (s.put i a).obj i = a := by simp [Store.put]
theorem put_ne (s : Store) {i k : ℕ} (a : AC) (h : k ≠ i) : (s.put i a).obj k = s.obj k := by simp [Store.put, h]

/-- The course of a construction whose latitude is accepted and whose longitude is an angle. -/
theorem mk_course (g : String → Bool) (s s1 s3 : Store) (i j : ℕ) (lat long : Arg) (alt : AltArg) (tz : TzArg) (name : Option String)
    (h1 : bind s lat = .ok (s1, i)) (hr : rad (-90) ≤ (s1.obj i).val ∧ (s1.obj i).val ≤ rad 90)
    (h3 : bind (s1.put i ⟨(s1.obj i).val, some latR⟩) long = .ok (s3, j)) :
    mk g s lat long alt tz name = (s3.put j ⟨wrapLong (s3.obj j).val, some longR⟩,
      finish g i j ⟨wrapLong (s3.obj j).val, some longR⟩ alt tz name) := by
  unfold mk
  simp only [h1, setLat_eq, if_pos hr, h3, setLong_eq]

theorem finish_ok {g : String → Bool} {i j : ℕ} {b : AC} {alt : AltArg} {tz : TzArg} {name : Option String} {site : Site}
    (h : finish g i j b alt tz name = .ok site) : site.lat = i ∧ site.long = j ∧ altOf alt = .ok site.alt ∧ zoneOf g b tz = .ok site.tz ∧
      site.name = name.getD "Default Site" := by
  unfold finish at h
  split at h
  · cases h
  · rename_i al hal
    split at h
    · cases h
    · rename_i z hz
      cases h
      exact ⟨rfl, rfl, hal, hz, rfl⟩

/-- The stages of a construction that succeeded. -/
theorem mk_ok {g : String → Bool} {s s' : Store} {lat long : Arg} {alt : AltArg} {tz : TzArg} {name : Option String} {site : Site}
    (h : mk g s lat long alt tz name = (s', .ok site)) :
    ∃ (s1 s3 : Store) (i j : ℕ), bind s lat = .ok (s1, i) ∧ (rad (-90) ≤ (s1.obj i).val ∧ (s1.obj i).val ≤ rad 90) ∧
      bind (s1.put i ⟨(s1.obj i).val, some latR⟩) long = .ok (s3, j) ∧ s' = s3.put j ⟨wrapLong (s3.obj j).val, some longR⟩ ∧
      finish g i j ⟨wrapLong (s3.obj j).val, some longR⟩ alt tz name = .ok site := by
  cases h1 : bind s lat with
  | error e => simp [mk, h1] at h
  | ok p =>
    obtain ⟨s1, i⟩ := p
    by_cases hr : rad (-90) ≤ (s1.obj i).val ∧ (s1.obj i).val ≤ rad 90
    · cases h3 : bind (s1.put i ⟨(s1.obj i).val, some latR⟩) long with
      | error e => simp [mk, h1, setLat_eq, hr, h3] at h
      | ok p =>
        obtain ⟨s3, j⟩ := p
        rw [mk_course g s s1 s3 i j lat long alt tz name h1 hr h3] at h
        obtain ⟨e1, e2⟩ := Prod.mk.inj h
        exact ⟨s1, s3, i, j, rfl, hr, h3, e1.symm, e2⟩
    · simp [mk, h1, setLat_eq, hr] at h

/-- The objects of a site just built from two different arguments: contents and ranges. -/
theorem mk_objects {g : String → Bool} {s s' : Store} {lat long : Arg} {alt : AltArg} {tz : TzArg} {name : Option String} {site : Site}
    (hl : lat.Known s) (hg : long.Known s) (hd : ¬ Same lat long) (h : mk g s lat long alt tz name = (s', .ok site)) :
    site.lat ≠ site.long ∧
    (∃ d, lat.deg s = some d ∧ degrees (s'.obj site.lat) = d ∧ -90 ≤ d ∧ d ≤ 90) ∧ (s'.obj site.lat).range = some latR ∧
    (∃ d, ∃ k : ℤ, long.deg s = some d ∧ degrees (s'.obj site.long) = d + 360 * k) ∧
    -180 ≤ degrees (s'.obj site.long) ∧ degrees (s'.obj site.long) < 180 ∧ (s'.obj site.long).range = some longR ∧
    (∀ k < s.next, k ≠ site.lat → k ≠ site.long → s'.obj k = s.obj k) ∧
    (∀ k, lat = .angle k → site.lat = k) ∧ (∀ k, long = .angle k → site.long = k) ∧
    ((∀ k, lat ≠ .angle k) → s.next ≤ site.lat) ∧ ((∀ k, long ≠ .angle k) → s.next ≤ site.long) ∧
    altOf alt = .ok site.alt ∧ zoneOf g (s'.obj site.long) tz = .ok site.tz ∧ site.name = name.getD "Default Site" := by
  obtain ⟨s1, s3, i, j, h1, hr, h3, rfl, hf⟩ := mk_ok h
  obtain ⟨rfl, rfl, ha, hz, hn⟩ := finish_ok hf
  obtain ⟨b1, b2, b3, b4, b5, b6⟩ := bind_ok h1 hl
  set s2 := s1.put site.lat ⟨(s1.obj site.lat).val, some latR⟩ with hs2
  have hn2 : s2.next = s1.next := rfl
  have hg' : long.Known s2 := by
    cases long with
    | angle k => exact lt_of_lt_of_le hg b3
    | _ => trivial
  obtain ⟨c1, c2, c3, c4, c5, c6⟩ := bind_ok h3 hg'
  have hne : site.lat ≠ site.long := by
    intro e
    by_cases hk : ∃ k, long = .angle k
    · obtain ⟨k, rfl⟩ := hk
      have := (c5 k rfl).2
      by_cases hk' : ∃ k, lat = .angle k
      · obtain ⟨k', rfl⟩ := hk'
        have := (b5 k' rfl).2
        exact hd ⟨k, by rw [show k' = k by omega], rfl⟩
      · have := (b6 (fun k e => hk' ⟨k, e⟩)).1
        have : k < s.next := hg
        omega
    · have := (c6 (fun k e => hk ⟨k, e⟩)).1
      rw [hn2] at this; omega
  have hlat : (s3.put site.long ⟨wrapLong (s3.obj site.long).val, some longR⟩).obj site.lat = ⟨(s1.obj site.lat).val, some latR⟩ := by
    rw [put_ne _ _ hne, c2 site.lat (by rw [hn2]; exact b4), hs2, put_self]
  have hlong : (s3.put site.long ⟨wrapLong (s3.obj site.long).val, some longR⟩).obj site.long = ⟨wrapLong (s3.obj site.long).val, some longR⟩ :=
    put_self _ _ _
  have hdeg : long.deg s = some (degrees (s3.obj site.long)) := by
    rw [← c1]
    cases long with
    | angle k =>
      have e := (c5 k rfl).2
      show some (degrees (s.obj k)) = some (degrees (s2.obj k))
      rw [hs2, put_ne _ _ (by rw [← e]; exact hne.symm), b2 k hg]
    | none => rfl
    | num x => rfl
    | seq xs => rcases xs with _ | ⟨x, _ | ⟨y, _ | ⟨z, w⟩⟩⟩ <;> rfl
  obtain ⟨k, w1, w2, w3⟩ := wrapLong_spec (s3.obj site.long).val (some longR)
  have hdv : degrees ⟨(s3.obj site.long).val, some longR⟩ = degrees (s3.obj site.long) := rfl
  refine ⟨hne, ⟨_, b1, ?_, ?_, ?_⟩, by rw [hlat], ⟨_, k, hdeg, ?_⟩, ?_, ?_, by rw [hlong], ?_, fun k e => (b5 k e).2, fun k e => (c5 k e).2, ?_, ?_, ha, ?_, hn⟩
  · rw [hlat]; rfl
  · exact le_degrees.2 hr.1
  · exact degrees_le.2 hr.2
  · rw [hlong, w1, hdv]
  · rw [hlong]; exact w2
  · rw [hlong]; exact w3
  · intro k hk k1 k2
    rw [put_ne _ _ k2, c2 k (by rw [hn2]; omega), hs2, put_ne _ _ k1, b2 k hk]
  · intro e; exact le_of_eq (b6 e).1.symm
  · intro e
    have := (c6 e).1
    rw [hn2] at this; omega
  · rw [hlong]; exact hz

/-! ## C162 -/

/-- A site is built exactly if the latitude is an angle between -90 and 90 degrees, the longitude any angle, the altitude None or a number
and the time zone None, a number or a known name. -/
theorem accepted_iff (g : String → Bool) (s : Store) (lat long : Arg) (alt : AltArg) (tz : TzArg) (name : Option String)
    (hl : lat.Known s) (hg : long.Known s) :
    (∃ s' site, mk g s lat long alt tz name = (s', .ok site)) ↔
      (∃ d, lat.deg s = some d ∧ -90 ≤ d ∧ d ≤ 90) ∧ (∃ d, long.deg s = some d) ∧ alt ≠ .bad ∧ (∀ n, tz = .name n → g n = true) := by
  constructor
  · rintro ⟨s', site, h⟩
    obtain ⟨s1, s3, i, j, h1, hr, h3, rfl, hf⟩ := mk_ok h
    obtain ⟨b1, b2, b3, b4, b5, b6⟩ := bind_ok h1 hl
    obtain ⟨rfl, rfl, ha, hz, hn⟩ := finish_ok hf
    refine ⟨⟨_, b1, le_degrees.2 hr.1, degrees_le.2 hr.2⟩, ?_, ?_, ?_⟩
    · cases long with
      | angle k => exact ⟨_, rfl⟩
      | none => exact ⟨_, rfl⟩
      | num x => exact ⟨_, rfl⟩
      | seq xs =>
        rcases xs with _ | ⟨x, _ | ⟨y, _ | ⟨z, w⟩⟩⟩
        · exact ⟨_, rfl⟩
        · exact ⟨_, rfl⟩
        · exact ⟨_, rfl⟩
        · simp [bind, fresh] at h3
    · rintro rfl; cases ha
    · rintro n rfl
      by_contra hgn
      simp [zoneOf, hgn] at hz
  · rintro ⟨⟨d, e1, e2, e3⟩, ⟨d', e4⟩, e5, e6⟩
    cases h1 : bind s lat with
    | error e => rw [(bind_err h1).1] at e1; cases e1
    | ok p =>
      obtain ⟨s1, i⟩ := p
      obtain ⟨b1, b2, b3, b4, b5, b6⟩ := bind_ok h1 hl
      rw [b1] at e1
      cases e1
      have hr : rad (-90) ≤ (s1.obj i).val ∧ (s1.obj i).val ≤ rad 90 := ⟨le_degrees.1 e2, degrees_le.1 e3⟩
      cases h3 : bind (s1.put i ⟨(s1.obj i).val, some latR⟩) long with
      | error e =>
        have h4 := (bind_err h3).1
        cases long with
        | angle k => cases h4
        | none => cases h4
        | num x => cases h4
        | seq xs => rcases xs with _ | ⟨x, _ | ⟨y, _ | ⟨z, w⟩⟩⟩ <;> first | (cases h4; done) | (cases e4; done)
      | ok p =>
        obtain ⟨s3, j⟩ := p
        have hf : ∃ site, finish g i j ⟨wrapLong (s3.obj j).val, some longR⟩ alt tz name = .ok site := by
          unfold finish
          cases alt with
          | bad => exact absurd rfl e5
          | none =>
            cases tz with
            | none => exact ⟨_, rfl⟩
            | hours x => exact ⟨_, rfl⟩
            | name n => simp only [altOf, zoneOf, e6 n rfl, if_true]; exact ⟨_, rfl⟩
          | num y =>
            cases tz with
            | none => exact ⟨_, rfl⟩
            | hours x => exact ⟨_, rfl⟩
            | name n => simp only [altOf, zoneOf, e6 n rfl, if_true]; exact ⟨_, rfl⟩
        obtain ⟨site, hs⟩ := hf
        have e := mk_course g s s1 s3 i j lat long alt tz name h1 hr h3
        rw [hs] at e
        exact ⟨_, site, e⟩

/-- The new site's latitude is the one given and lies between -90 and 90 degrees; its longitude is the one given up to full turns, in
[-180,180). -/
theorem new_site (g : String → Bool) (s s' : Store) (lat long : Arg) (alt : AltArg) (tz : TzArg) (name : Option String) (site : Site)
    (hl : lat.Known s) (hg : long.Known s) (hd : ¬ Same lat long) (h : mk g s lat long alt tz name = (s', .ok site)) :
    lat.deg s = some (degrees (s'.obj site.lat)) ∧ -90 ≤ degrees (s'.obj site.lat) ∧ degrees (s'.obj site.lat) ≤ 90 ∧
    (∃ d, ∃ k : ℤ, long.deg s = some d ∧ degrees (s'.obj site.long) = d + 360 * k) ∧
    -180 ≤ degrees (s'.obj site.long) ∧ degrees (s'.obj site.long) < 180 ∧
    site.name = name.getD "Default Site" ∧ (alt = .none → site.alt = none) ∧ (∀ x, alt = .num x → site.alt = some x) := by
  obtain ⟨_, ⟨d, a1, a2, a3, a4⟩, _, a6, a7, a8, _, _, _, _, _, _, ha, _, hn⟩ := mk_objects hl hg hd h
  refine ⟨by rw [a2, a1], by rw [a2]; exact a3, by rw [a2]; exact a4, a6, a7, a8, hn, ?_, ?_⟩
  · rintro rfl; simp only [altOf, Except.ok.injEq] at ha; exact ha.symm
  · rintro x rfl; simp only [altOf, Except.ok.injEq] at ha; exact ha.symm

theorem npRound_spec (x : ℝ) : |x - npRound x| ≤ 1 / 2 ∧ (|x - npRound x| = 1 / 2 → Even (npRound x)) := by
  have h0 := Int.floor_le x
  have h1 := Int.lt_floor_add_one x
  unfold npRound
  split
  · rename_i h
    rw [abs_of_nonneg (by linarith)]
    exact ⟨h.le, fun e => by linarith⟩
  · rename_i h
    split
    · rename_i h'
      push_cast
      rw [abs_of_nonpos (by linarith)]
      exact ⟨by linarith, fun e => by linarith⟩
    · rename_i h'
      split
      · rename_i he
        rw [abs_of_nonneg (by linarith)]
        exact ⟨by linarith, fun _ => he⟩
      · rename_i he
        push_cast
        rw [abs_of_nonpos (by linarith)]
        exact ⟨by linarith, fun _ => (Int.not_even_iff_odd.1 he).add_one⟩

/-- Time zone: without one, the whole number of hours nearest to the longitude (15 degrees an hour; at a tie the even one); a number of
hours is kept to the second, towards zero; a name is kept. -/
theorem time_zone (g : String → Bool) (s s' : Store) (lat long : Arg) (alt : AltArg) (tz : TzArg) (name : Option String) (site : Site)
    (hl : lat.Known s) (hg : long.Known s) (hd : ¬ Same lat long) (h : mk g s lat long alt tz name = (s', .ok site)) :
    (tz = .none → ∃ n : ℤ, site.tz = .fixed (3600 * n) ∧ |degrees (s'.obj site.long) / 15 - n| ≤ 1 / 2 ∧
      (|degrees (s'.obj site.long) / 15 - n| = 1 / 2 → Even n) ∧ -12 ≤ n ∧ n ≤ 12) ∧
    (∀ x, tz = .hours x → ∃ n : ℤ, site.tz = .fixed n ∧ |x * 3600 - n| < 1 ∧ |(n : ℝ)| ≤ |x * 3600| ∧ 0 ≤ x * n) ∧
    (∀ n, tz = .name n → site.tz = .named n ∧ g n = true) := by
  obtain ⟨_, _, _, _, a7, a8, _, _, _, _, _, _, _, hz, _⟩ := mk_objects hl hg hd h
  refine ⟨?_, ?_, ?_⟩
  · rintro rfl
    simp only [zoneOf, Except.ok.injEq] at hz
    obtain ⟨r1, r2⟩ := npRound_spec (degrees (s'.obj site.long) / 15)
    refine ⟨_, by rw [← hz]; congr 1; ring, r1, r2, ?_⟩
    have := abs_le.1 r1
    have b1 : (-(13 : ℤ) : ℝ) < npRound (degrees (s'.obj site.long) / 15) := by push_cast; linarith
    have b2 : (npRound (degrees (s'.obj site.long) / 15) : ℝ) < (13 : ℤ) := by push_cast; linarith
    have b1' : (-13 : ℤ) < npRound (degrees (s'.obj site.long) / 15) := by exact_mod_cast b1
    have b2' : npRound (degrees (s'.obj site.long) / 15) < 13 := by exact_mod_cast b2
    omega
  · rintro x rfl
    simp only [zoneOf, Except.ok.injEq] at hz
    refine ⟨_, hz.symm, ?_⟩
    have hx : x * 60 * 60 = x * 3600 := by ring
    rw [hx]
    unfold pyint
    split
    · rename_i hneg
      have c0 := Int.le_ceil (x * 3600)
      have c1 := Int.ceil_lt_add_one (x * 3600)
      have c2 : ⌈x * 3600⌉ ≤ 0 := Int.ceil_le.2 (by push_cast; exact hneg.le)
      have c3 : (⌈x * 3600⌉ : ℝ) ≤ 0 := by exact_mod_cast c2
      refine ⟨?_, ?_, ?_⟩
      · rw [abs_of_nonpos (by linarith)]; linarith
      · rw [abs_of_nonpos c3, abs_of_neg hneg]; linarith
      · nlinarith
    · rename_i hneg
      have c0 := Int.floor_le (x * 3600)
      have c1 := Int.lt_floor_add_one (x * 3600)
      have c2 : (0 : ℤ) ≤ ⌊x * 3600⌋ := Int.floor_nonneg.2 (by linarith)
      have c3 : (0 : ℝ) ≤ ⌊x * 3600⌋ := by exact_mod_cast c2
      refine ⟨?_, ?_, ?_⟩
      · rw [abs_of_nonneg (by linarith)]; linarith
      · rw [abs_of_nonneg c3, abs_of_nonneg (by linarith)]; exact c0
      · nlinarith
  · rintro n rfl
    simp only [zoneOf] at hz
    split at hz
    · rename_i hgn; injection hz with hz; exact ⟨hz.symm, hgn⟩
    · cases hz

theorem step_range {a : AC} {op : Op} (h : Keeps op) : (step a op).1.range = a.range := by
  cases op with
  | radians x => exact setRadians_range _ _
  | degrees x => exact setRadians_range _ _
  | hours x => exact setRadians_range _ _
  | hms x y z => exact setRadians_range _ _
  | range x => exact absurd h id
  | dms d m s =>
    have hr := setRadians_range a ((|d| + |m| / 60 + |s| / 3600) * π / 180)
    show (setDms a d m s).1.range = a.range
    unfold setDms setDegrees
    split
    · rename_i a' heq
      rw [heq] at hr
      simp only at hr ⊢
      split <;> exact hr
    · rename_i a' e heq
      rw [heq] at hr
      exact hr

theorem rad_neg (x : ℝ) : rad (-x) = -rad x := by unfold rad; ring

/-- An object in one of the two ranges keeps to it, whatever is assigned. -/
theorem run_keeps (s : Store) (i : ℕ) (r : Range) (hr : r = latR ∨ r = longR) (h : (s.obj i).range = some r) (hv : Inv (s.obj i))
    (ops : List (ℕ × Op)) (hk : ∀ p ∈ ops, p.1 = i → Keeps p.2) :
    ((runOps s ops).obj i).range = some r ∧ Inv ((runOps s ops).obj i) := by
  induction ops generalizing s with
  | nil => exact ⟨h, hv⟩
  | cons p ops ih =>
    obtain ⟨k, op⟩ := p
    apply ih
    · by_cases e : i = k
      · subst e
        rw [put_self, step_range (hk (i, op) (by simp) rfl), h]
      · rw [put_ne _ _ e, h]
    · by_cases e : i = k
      · subst e
        rw [put_self]
        apply step_inv hv
        cases op with
        | dms d m sc =>
          right
          intro r' hr'
          rw [h] at hr'
          cases hr'
          rcases hr with rfl | rfl
          · show rad (-90) = -rad 90; exact rad_neg 90
          · show rad (-180) = -rad 180; exact rad_neg 180
        | range x => exact absurd (hk (i, .range x) (by simp) rfl) id
        | _ => trivial
      · rw [put_ne _ _ e]; exact hv
    · intro p hp; exact hk p (by simp [hp])

/-- Whatever is later assigned to the values of angle objects, through the site or through other references, the site's latitude stays
between -90 and 90 degrees and its longitude between -180 and 180, as long as nobody replaces their ranges. -/
theorem ranges_stay (g : String → Bool) (s s' : Store) (lat long : Arg) (alt : AltArg) (tz : TzArg) (name : Option String) (site : Site)
    (hl : lat.Known s) (hg : long.Known s) (hd : ¬ Same lat long) (h : mk g s lat long alt tz name = (s', .ok site))
    (ops : List (ℕ × Op)) (hk : ∀ p ∈ ops, p.1 = site.lat ∨ p.1 = site.long → Keeps p.2) :
    -90 ≤ degrees ((runOps s' ops).obj site.lat) ∧ degrees ((runOps s' ops).obj site.lat) ≤ 90 ∧
    -180 ≤ degrees ((runOps s' ops).obj site.long) ∧ degrees ((runOps s' ops).obj site.long) ≤ 180 := by
  obtain ⟨_, ⟨d, a1, a2, a3, a4⟩, a5, a6, a7, a8, a9, _⟩ := mk_objects hl hg hd h
  have i1 : Inv (s'.obj site.lat) := by
    refine ⟨fun r hr => ?_, fun r hr => ?_⟩
    · rw [a5] at hr; cases hr; exact ⟨rad_le.2 (by norm_num), fun e => absurd rfl e⟩
    · rw [a5] at hr; cases hr
      exact ⟨le_degrees.1 (by rw [a2]; exact a3), degrees_le.1 (by rw [a2]; exact a4)⟩
  have i2 : Inv (s'.obj site.long) := by
    refine ⟨fun r hr => ?_, fun r hr => ?_⟩
    · rw [a9] at hr; cases hr; exact ⟨rad_le.2 (by norm_num), fun _ => rad_lt.2 (by norm_num)⟩
    · rw [a9] at hr; cases hr
      exact ⟨le_degrees.1 a7, degrees_le.1 a8.le⟩
  obtain ⟨r1, v1⟩ := run_keeps s' site.lat latR (Or.inl rfl) a5 i1 ops (fun p hp e => hk p hp (Or.inl e))
  obtain ⟨r2, v2⟩ := run_keeps s' site.long longR (Or.inr rfl) a9 i2 ops (fun p hp e => hk p hp (Or.inr e))
  have w1 := v1.2 _ r1
  have w2 := v2.2 _ r2
  exact ⟨le_degrees.2 w1.1, degrees_le.2 w1.2, le_degrees.2 w2.1, degrees_le.2 w2.2⟩

/-- The objects given are used, not copied: they get the site's ranges, a longitude is wrapped in place; every other object the
program already had is as before. -/
theorem caller_objects (g : String → Bool) (s s' : Store) (lat long : Arg) (alt : AltArg) (tz : TzArg) (name : Option String) (site : Site)
    (hl : lat.Known s) (hg : long.Known s) (hd : ¬ Same lat long) (h : mk g s lat long alt tz name = (s', .ok site)) :
    (∀ k, lat = .angle k → site.lat = k ∧ (s'.obj k).range = some ⟨rad (-90), rad 90, none⟩ ∧ (s'.obj k).val = (s.obj k).val) ∧
    (∀ k, long = .angle k → site.long = k ∧ (s'.obj k).range = some ⟨rad (-180), rad 180, some 0⟩ ∧
      -180 ≤ degrees (s'.obj k) ∧ degrees (s'.obj k) < 180) ∧
    (∀ k < s.next, lat ≠ .angle k → long ≠ .angle k → s'.obj k = s.obj k) := by
  obtain ⟨_, ⟨d, a1, a2, a3, a4⟩, a5, a6, a7, a8, a9, a10, a11, a12, a13, a14, _⟩ := mk_objects hl hg hd h
  refine ⟨?_, ?_, ?_⟩
  · rintro k rfl
    have e := a11 k rfl
    rw [e] at a5 a2
    refine ⟨e, a5, ?_⟩
    have : degrees (s.obj k) = d := by injection a1
    rw [← rad_degrees, ← rad_degrees (s.obj k), a2, this]
  · rintro k rfl
    have e := a12 k rfl
    rw [e] at a9 a7 a8
    refine ⟨e, ?_, a7, a8⟩
    rw [a9, longR, rad_0]
  · intro k hk n1 n2
    apply a10 k hk
    · rintro rfl
      by_cases hx : ∃ k, lat = .angle k
      · obtain ⟨k', rfl⟩ := hx
        exact n1 (by rw [a11 k' rfl])
      · have := a13 (fun k e => hx ⟨k, e⟩); omega
    · rintro rfl
      by_cases hx : ∃ k, long = .angle k
      · obtain ⟨k', rfl⟩ := hx
        exact n2 (by rw [a12 k' rfl])
      · have := a14 (fun k e => hx ⟨k, e⟩); omega

/-- A latitude outside [-90,90] is refused with a ValueError and no object of the caller is changed; so is a sequence of three or more
numbers, with a TypeError. -/
theorem bad_latitude (g : String → Bool) (s : Store) (lat long : Arg) (alt : AltArg) (tz : TzArg) (name : Option String) (hl : lat.Known s) :
    (∀ d, lat.deg s = some d → ¬ (-90 ≤ d ∧ d ≤ 90) → (mk g s lat long alt tz name).2 = .error .value ∧
      ∀ k < s.next, (mk g s lat long alt tz name).1.obj k = s.obj k) ∧
    (lat.deg s = none → mk g s lat long alt tz name = (s, .error .type)) := by
  constructor
  · intro d hd hn
    cases h1 : bind s lat with
    | error e => rw [(bind_err h1).1] at hd; cases hd
    | ok p =>
      obtain ⟨s1, i⟩ := p
      obtain ⟨b1, b2, b3, b4, b5, b6⟩ := bind_ok h1 hl
      rw [b1] at hd; cases hd
      have hr : ¬ (rad (-90) ≤ (s1.obj i).val ∧ (s1.obj i).val ≤ rad 90) := by
        rw [← le_degrees, ← degrees_le]; exact hn
      have e : mk g s lat long alt tz name = (s1.put i (s1.obj i), .error .value) := by
        unfold mk; simp only [h1, setLat_eq, if_neg hr]
      rw [e]
      refine ⟨rfl, fun k hk => ?_⟩
      show (s1.put i (s1.obj i)).obj k = s.obj k
      by_cases hki : k = i
      · subst hki; rw [put_self, b2 k hk]
      · rw [put_ne _ _ hki, b2 k hk]
  · intro hd
    cases h1 : bind s lat with
    | error e => unfold mk; simp only [h1, (bind_err h1).2]
    | ok p =>
      obtain ⟨s1, i⟩ := p
      obtain ⟨b1, _⟩ := bind_ok h1 hl
      rw [b1] at hd; cases hd

/-- An altitude that is no number is refused, but only after the caller's angle objects have been changed. -/
theorem bad_altitude_changes_angles (g : String → Bool) (s : Store) (i j : ℕ) (tz : TzArg) (name : Option String) (hij : i ≠ j)
    (h : -90 ≤ degrees (s.obj i) ∧ degrees (s.obj i) ≤ 90) :
    ∃ s', mk g s (.angle i) (.angle j) .bad tz name = (s', .error .value) ∧
      (s'.obj i).range = some ⟨rad (-90), rad 90, none⟩ ∧ (s'.obj j).range = some ⟨rad (-180), rad 180, some 0⟩ := by
  have := mk_course g s s (s.put i ⟨(s.obj i).val, some latR⟩) i j (.angle i) (.angle j) .bad tz name rfl
    ⟨le_degrees.1 h.1, degrees_le.1 h.2⟩ rfl
  refine ⟨_, this, ?_, ?_⟩
  · rw [put_ne _ _ hij, put_self]; rfl
  · rw [put_self, longR, rad_0]

/-- Afterwards the attributes can be assigned any angle: nothing is checked, and the time zone stays. -/
theorem assignment_unchecked (s : Store) (site : Site) (x : ℝ) :
    (∃ s' site', assignLat s site (.num x) = (s', .ok site') ∧ degrees (s'.obj site'.lat) = x ∧ (s'.obj site'.lat).range = none ∧
      site'.long = site.long ∧ site'.tz = site.tz) ∧
    (∃ s' site', assignLong s site (.num x) = (s', .ok site') ∧ degrees (s'.obj site'.long) = x ∧ (s'.obj site'.long).range = none ∧
      site'.lat = site.lat ∧ site'.tz = site.tz) := by
  have e : (Function.update s.obj s.next ⟨rad x, none⟩) s.next = ⟨rad x, none⟩ := by simp
  constructor
  · refine ⟨_, _, rfl, ?_, ?_, rfl, rfl⟩
    · show degrees (Function.update s.obj s.next ⟨rad x, none⟩ s.next) = x
      rw [e, degrees_rad]
    · show (Function.update s.obj s.next ⟨rad x, none⟩ s.next).range = none
      rw [e]
  · refine ⟨_, _, rfl, ?_, ?_, rfl, rfl⟩
    · show degrees (Function.update s.obj s.next ⟨rad x, none⟩ s.next) = x
      rw [e, degrees_rad]
    · show (Function.update s.obj s.next ⟨rad x, none⟩ s.next).range = none
      rw [e]

/-- Assigning an angle object keeps that object: a later assignment to it moves the site. -/
theorem assigned_object_shared (s : Store) (site : Site) (i : ℕ) (x : ℝ) (h : (s.obj i).range = none) :
    ∃ site', assignLat s site (.angle i) = (s, .ok site') ∧ degrees ((runOps s [(i, .degrees x)]).obj site'.lat) = x := by
  refine ⟨_, rfl, ?_⟩
  show degrees ((s.put i (step (s.obj i) (.degrees x)).1).obj i) = x
  rw [put_self]
  simp only [step, setDegrees, setRadians, h, checkRange]
  exact degrees_rad x none

/-- One object given for both angles ends with the longitude's range: the latitude can then be set beyond the pole. -/
theorem same_object_loses_range (g : String → Bool) (s : Store) (i : ℕ) (alt : AltArg) (tz : TzArg) (name : Option String)
    (h : -90 ≤ degrees (s.obj i) ∧ degrees (s.obj i) ≤ 90) :
    ∃ s', (mk g s (.angle i) (.angle i) alt tz name).1 = s' ∧ (s'.obj i).range = some ⟨rad (-180), rad 180, some 0⟩ ∧
      degrees ((runOps s' [(i, .degrees 120)]).obj i) = 120 := by
  have := mk_course g s s (s.put i ⟨(s.obj i).val, some latR⟩) i i (.angle i) (.angle i) alt tz name rfl
    ⟨le_degrees.1 h.1, degrees_le.1 h.2⟩ rfl
  refine ⟨_, rfl, ?_, ?_⟩
  · rw [this]; simp only [put_self, longR, rad_0]
  · rw [this]
    simp only [runOps, put_self, step, setDegrees]
    have hin : (⟨rad (-180), rad 180, some (rad 0)⟩ : Range).low ≤ rad 120 ∧ rad 120 < (⟨rad (-180), rad 180, some (rad 0)⟩ : Range).up :=
      ⟨rad_le.2 (by norm_num), rad_lt.2 (by norm_num)⟩
    have hw : rad 180 - rad (-180) ≠ 0 := by
      have := rad_lt.2 (show (-180 : ℝ) < 180 by norm_num); linarith
    have e : (120 : ℝ) * π / 180 = rad 120 := rfl
    simp only [setRadians, longR, checkRange, rad_0, lt_irrefl, if_false, hw, e]
    rw [pymod_of_mem (by linarith [hin.1]) (by linarith [hin.2]), sub_add_cancel, degrees_rad]

/-- The geocentric latitude reads as it was set, strictly between the poles. -/
theorem geocentric_roundtrip (s : Store) (site : Site) (x : ℝ) (h1 : -90 < x) (h2 : x < 90) :
    geocentric (assignGeocentric s site x).1 (assignGeocentric s site x).2 = rad x ∧
    (∀ k < s.next, (assignGeocentric s site x).1.obj k = s.obj k) ∧ (assignGeocentric s site x).2.long = site.long := by
  refine ⟨?_, fun k hk => ?_, rfl⟩
  · show CoordSky.toGeocentric (Function.update s.obj s.next ⟨CoordSky.toGeographic (rad x), none⟩ s.next).val = rad x
    simp only [Function.update_self]
    apply (CoordSky.latitude_roundtrip (rad x) ?_ ?_).2
    · have := rad_lt.2 h1; unfold rad at this ⊢; linarith
    · have := rad_lt.2 h2; unfold rad at this ⊢; linarith
  · show Function.update s.obj s.next _ k = s.obj k
    simp [Function.update, hk.ne]

/-- A concrete construction: Kitt Peak from an angle object of 31.9633 degrees and 248.4 degrees east. -/
def sample : Store := ⟨fun i => if i = 0 then ⟨rad 31.9633, none⟩ else ⟨rad 248.4, none⟩, 2⟩

example : ∃ s' site, mk (fun _ => false) sample (.angle 0) (.angle 1) (.num 2120) (.hours (-7)) (some "KPNO") = (s', .ok site) := by
  apply (accepted_iff _ sample _ _ _ _ _ (by show 0 < 2; norm_num) (by show 1 < 2; norm_num)).2
  refine ⟨⟨31.9633, ?_, by norm_num, by norm_num⟩, ⟨_, rfl⟩, by simp, by simp⟩
  show some (degrees (sample.obj 0)) = some 31.9633
  simp [sample, degrees_rad]
example : ¬ Same (.angle 0) (.angle 1) := by rintro ⟨i, h1, h2⟩; injection h1 with h1; injection h2 with h2; omega

end

end Verif.SiteAttr

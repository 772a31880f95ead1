import Verif.AngleText
import Verif.CoordFuncs
import Verif.ObsDb

/-!
# Arrays of positions (astropysics/coords/funcs.py 390-413, 450-490; coords/coordsys.py 3415-3475) (C171, C172)

`radec_str_to_decimal`, `angular_string_to_dec`, `objects_to_coordinate_arrays` and `offset_proj_sep`.  Arrays are lists; real arithmetic; the attributes of
the position objects are a parameter, and so is the constructor `ICRSCoordinates`.  `spherical is 'degrees'` is taken to hold for the literal.
-/

namespace Verif.PosArrays

open Verif.Angle Verif.AngleParse Verif.AngleText

noncomputable section

/-- The exceptions: ValueError, UnboundLocalError, NameError, AttributeError, IndexError. -/
inductive PErr
  | value | unbound | name | attribute | index
  deriving DecidableEq

/-! ## Model -/

/-- `AngularCoordinate(t,sghms=…).d`. -/
def readDeg (sghms : Option Bool) (t : Text) : Except PErr ℝ :=
  match make (.text t) sghms .none false with
  | .ok a => .ok (degrees a)
  | .error _ => .error .value

/-- The loop of the form with two arguments, funcs.py 482-485: both angles of an object before the next one. -/
def readPairs : List (Text × Text) → Except PErr (List ℝ × List ℝ)
  | [] => .ok ([], [])
  | (r, d) :: rest =>
    match readDeg (some true) r with
    | .error e => .error e
    | .ok x => match readDeg (some false) d with
      | .error e => .error e
      | .ok y => match readPairs rest with
        | .error e => .error e
        | .ok (xs, ys) => .ok (x :: xs, y :: ys)

/-- The arguments of `radec_str_to_decimal`. -/
inductive Args (S : Type)
  | one (l : List S)
  | two (ra dec : List Text)
  | other

/-- `radec_str_to_decimal`, funcs.py 450-490: with one argument the lists are never made, so that the first `append`, or the `return`, raises
UnboundLocalError. -/
def radec {S : Type} (icrs : S → Except PErr (ℝ × ℝ)) : Args S → Except PErr (List ℝ × List ℝ)
  | .one [] => .error .unbound
  | .one (s :: _) => match icrs s with
    | .error e => .error e
    | .ok _ => .error .unbound
  | .two ra dec => if ra.length ≠ dec.length then .error .value else readPairs (ra.zip dec)
  | .other => .error .value

/-- `angular_string_to_dec`, coordsys.py 3415-3436: `hms` is not used. -/
def angularStringToDec (t : Text) (_hms degs : Bool) : Except PErr ℝ :=
  match make (.text t) none .none false with
  | .error _ => .error .value
  | .ok a => .ok (if degs then degrees a else a.val)

/-- The attributes of one object. -/
def rowOf {O : Type} (attr : O → Text → Option AC) (degs : Bool) (names : List Text) (o : O) : Except PErr (List ℝ) :=
  match names with
  | [] => .ok []
  | n :: ns => match attr o n with
    | none => .error .attribute
    | some a => match rowOf attr degs ns o with
      | .error e => .error e
      | .ok r => .ok ((if degs then degrees a else a.val) :: r)

/-- The rows of all objects. -/
def rowsOf {O : Type} (attr : O → Text → Option AC) (degs : Bool) (names : List Text) : List O → Except PErr (List (List ℝ))
  | [] => .ok []
  | o :: os => match rowOf attr degs names o with
    | .error e => .error e
    | .ok r => match rowsOf attr degs names os with
      | .error e => .error e
      | .ok rs => .ok (r :: rs)

/-- `.T` of an array of rows of `k` numbers; the array without rows is empty. -/
def transposed (k : ℕ) (rows : List (List ℝ)) : List (List ℝ) :=
  if rows = [] then [] else (List.range k).map fun j => rows.map fun r => r.getD j 0

/-- `objects_to_coordinate_arrays`, coordsys.py 3438-3475: `EquatorialCoordinates` is not defined, so that `'auto'` raises NameError for the first object;
otherwise the names between the commas. -/
def objectArrays {O : Type} (attr : O → Text → Option AC) (coords : Text) (degs : Bool) (os : List O) : Except PErr (List (List ℝ)) :=
  if coords = "auto".toList then
    if os = [] then .ok [] else .error .name
  else match rowsOf attr degs (ObsDb.splitC ',' coords) os with
    | .error e => .error e
    | .ok rows => .ok (transposed (ObsDb.splitC ',' coords).length rows)

/-- What `spherical` can be. -/
inductive Sph
  | no | radians | degrees

/-- A vector of three numbers. -/
abbrev V3 := ℝ × ℝ × ℝ
def dot (a b : V3) : ℝ := a.1 * b.1 + a.2.1 * b.2.1 + a.2.2 * b.2.2

def cart : Sph → V3 → V3
  | .no, p => p
  | .radians, p => CoordFuncs.sphericalToCartesian p.1 p.2.1 p.2.2 false
  | .degrees, p => CoordFuncs.sphericalToCartesian p.1 p.2.1 p.2.2 true

/-- The argument `offset`: a plain sequence of numbers, or a sequence of sequences. -/
inductive Off
  | flat (l : List ℝ)
  | rows (l : List (List ℝ))

def asV3 : List ℝ → Option V3
  | [x, y, z] => some (x, y, z)
  | _ => none

/-- `ohat`, funcs.py 412: a vector times its squared length to the power -1/2. -/
def ohat (o : V3) : V3 :=
  (o.1 * (dot o o) ^ (-(1 / 2) : ℝ), o.2.1 * (dot o o) ^ (-(1 / 2) : ℝ), o.2.2 * (dot o o) ^ (-(1 / 2) : ℝ))

/-- `offset_proj_sep`, funcs.py 390-413: the product of the matrix of points with that of the unit vectors.  Rows of unequal length are no array, so they are
left out by `asV3` as well; an offset of length 0 gives nan in numpy and is excluded in the theorems. -/
def offsetProjSep (pts : List V3) (off : Off) (sph : Sph) : Except PErr (List (List ℝ)) :=
  match off with
  | .flat _ => .error .index
  | .rows [] => .error .index
  | .rows (r :: rs) => match (r :: rs).mapM asV3 with
    | none => .error .value
    | some os => .ok (pts.map fun p => os.map fun o => dot (cart sph p) (ohat o))

/-! ## Texts of positions -/

/-- The degrees a text stands for under `sghms`. -/
def Reads (sghms : Option Bool) (t : Text) (x : ℝ) : Prop :=
  ∃ v u, parse sghms false t = .ok (v, u) ∧ x = toRadians v u * 180 / Real.pi

theorem readDeg_exact (sghms : Option Bool) (t : Text) :
    (∀ x, readDeg sghms t = .ok x ↔ Reads sghms t x) ∧ ((∃ e, parse sghms false t = .error e) ↔ readDeg sghms t = .error .value) := by
  cases h : parse sghms false t with
  | error e =>
    have : readDeg sghms t = .error .value := by simp only [readDeg, make, h]
    rw [this]
    refine ⟨fun x => ⟨by simp, ?_⟩, by simp⟩
    rintro ⟨v, u, hp, -⟩
    rw [h] at hp; simp at hp
  | ok p =>
    obtain ⟨v, u⟩ := p
    have : readDeg sghms t = .ok (toRadians v u * 180 / Real.pi) := by
      simp only [readDeg, (make_text h .none).2, degrees]
    rw [this]
    refine ⟨fun x => ⟨fun e => ⟨v, u, h, (Except.ok.inj e).symm⟩, ?_⟩, by simp⟩
    rintro ⟨v', u', hp, rfl⟩
    rw [h] at hp
    simp only [Except.ok.injEq, Prod.mk.injEq] at hp
    rw [hp.1, hp.2]

theorem readPairs_exact (l : List (Text × Text)) :
    (∀ xs ys, readPairs l = .ok (xs, ys) ↔ List.Forall₂ (fun p x => Reads (some true) p.1 x) l xs ∧ List.Forall₂ (fun p y => Reads (some false) p.2 y) l ys) ∧
    (∀ e, readPairs l = .error e → e = .value) := by
  induction l with
  | nil =>
    refine ⟨fun xs ys => ?_, by simp [readPairs]⟩
    simp only [readPairs, Except.ok.injEq, Prod.mk.injEq, List.forall₂_nil_left_iff]
    constructor
    · rintro ⟨rfl, rfl⟩; exact ⟨rfl, rfl⟩
    · rintro ⟨rfl, rfl⟩; exact ⟨rfl, rfl⟩
  | cons p l ih =>
    obtain ⟨r, d⟩ := p
    have hr := readDeg_exact (some true) r
    have hd := readDeg_exact (some false) d
    simp only [readPairs]
    cases h1 : readDeg (some true) r with
    | error e =>
      have hno : ∀ x, ¬ Reads (some true) r x := fun x hx => by rw [(hr.1 x).2 hx] at h1; simp at h1
      refine ⟨fun xs ys => ⟨by simp, ?_⟩, ?_⟩
      · rintro ⟨h, -⟩
        obtain ⟨x, xs', hx, -, rfl⟩ := List.forall₂_cons_left_iff.1 h
        exact absurd hx (hno x)
      · intro e' he'
        simp only [Except.error.injEq] at he'
        subst he'
        cases hp : parse (some true) false r with
        | error e2 => have := hr.2.1 ⟨e2, hp⟩; rw [h1] at this; exact Except.error.inj this
        | ok q => exact absurd ⟨q.1, q.2, hp, rfl⟩ (hno _)
    | ok x =>
      have hx := (hr.1 x).1 h1
      simp only
      cases h2 : readDeg (some false) d with
      | error e =>
        have hno : ∀ x, ¬ Reads (some false) d x := fun x hx => by rw [(hd.1 x).2 hx] at h2; simp at h2
        refine ⟨fun xs ys => ⟨by simp, ?_⟩, ?_⟩
        · rintro ⟨-, h⟩
          obtain ⟨y, ys', hy, -, rfl⟩ := List.forall₂_cons_left_iff.1 h
          exact absurd hy (hno y)
        · intro e' he'
          simp only [Except.error.injEq] at he'
          subst he'
          cases hp : parse (some false) false d with
          | error e2 => have := hd.2.1 ⟨e2, hp⟩; rw [h2] at this; exact Except.error.inj this
          | ok q => exact absurd ⟨q.1, q.2, hp, rfl⟩ (hno _)
      | ok y =>
        have hy := (hd.1 y).1 h2
        simp only
        cases h3 : readPairs l with
        | error e =>
          refine ⟨fun xs ys => ⟨by simp, ?_⟩, fun e' he' => ?_⟩
          · rintro ⟨a, b⟩
            obtain ⟨x', xs', -, a', rfl⟩ := List.forall₂_cons_left_iff.1 a
            obtain ⟨y', ys', -, b', rfl⟩ := List.forall₂_cons_left_iff.1 b
            have := (ih.1 xs' ys').2 ⟨a', b'⟩
            rw [h3] at this; simp at this
          · simp only [Except.error.injEq] at he'
            exact he' ▸ ih.2 e h3
        | ok q =>
          obtain ⟨xs0, ys0⟩ := q
          obtain ⟨ha, hb⟩ := (ih.1 xs0 ys0).1 h3
          refine ⟨fun xs ys => ?_, by simp⟩
          simp only [Except.ok.injEq, Prod.mk.injEq]
          constructor
          · rintro ⟨rfl, rfl⟩
            exact ⟨.cons hx ha, .cons hy hb⟩
          · rintro ⟨a, b⟩
            obtain ⟨x', xs', hx', a', rfl⟩ := List.forall₂_cons_left_iff.1 a
            obtain ⟨y', ys', hy', b', rfl⟩ := List.forall₂_cons_left_iff.1 b
            have e1 := (hr.1 x').2 hx'
            have e2 := (hd.1 y').2 hy'
            rw [h1] at e1; rw [h2] at e2
            have e3 := (ih.1 xs' ys').2 ⟨a', b'⟩
            rw [h3] at e3
            simp only [Except.ok.injEq, Prod.mk.injEq] at e1 e2 e3
            exact ⟨by rw [e1, e3.1], by rw [e2, e3.2]⟩

/-- C171.  Two sequences of texts: accepted exactly if they are equally long and every text can be read, right ascensions without unit as hours, declinations
as degrees; the results are the degrees, each at the place of its text; everything else is ValueError. -/
theorem radec_exact {S : Type} (icrs : S → Except PErr (ℝ × ℝ)) (ra dec : List Text) :
    (∀ xs ys, radec icrs (.two ra dec) = .ok (xs, ys) ↔
      ra.length = dec.length ∧ List.Forall₂ (Reads (some true)) ra xs ∧ List.Forall₂ (Reads (some false)) dec ys) ∧
    (∀ e, radec icrs (.two ra dec) = .error e → e = .value) := by
  by_cases hl : ra.length = dec.length
  · have e0 : radec icrs (.two ra dec) = readPairs (ra.zip dec) := by simp [radec, hl]
    rw [e0]
    refine ⟨fun xs ys => ?_, (readPairs_exact _).2⟩
    rw [(readPairs_exact _).1]
    have m1 : (ra.zip dec).map Prod.fst = ra := List.map_fst_zip (le_of_eq hl)
    have m2 : (ra.zip dec).map Prod.snd = dec := List.map_snd_zip (le_of_eq hl.symm)
    have f1 : List.Forall₂ (fun p x => Reads (some true) p.1 x) (ra.zip dec) xs ↔ List.Forall₂ (Reads (some true)) ra xs := by
      conv_rhs => rw [← m1]
      rw [List.forall₂_map_left_iff]
    have f2 : List.Forall₂ (fun p x => Reads (some false) p.2 x) (ra.zip dec) ys ↔ List.Forall₂ (Reads (some false)) dec ys := by
      conv_rhs => rw [← m2]
      rw [List.forall₂_map_left_iff]
    rw [f1, f2]
    simp [hl]
  · have e0 : radec icrs (.two ra dec) = .error .value := by simp [radec, hl]
    rw [e0]
    exact ⟨fun xs ys => ⟨by simp, fun h => absurd h.1 hl⟩, fun e h => (Except.error.inj h).symm⟩

/-- C171.  The form with one argument never works, nor does any other number of arguments. -/
theorem radec_one_fails {S : Type} (icrs : S → Except PErr (ℝ × ℝ)) (l : List S) :
    (∀ r, radec icrs (.one l) ≠ .ok r) ∧ ((∀ s ∈ l, ∃ p, icrs s = .ok p) → radec icrs (.one l) = .error .unbound) ∧
    radec icrs .other = .error .value := by
  refine ⟨?_, ?_, rfl⟩
  · intro r
    cases l with
    | nil => simp [radec]
    | cons s l => simp only [radec]; cases icrs s <;> simp
  · intro h
    cases l with
    | nil => rfl
    | cons s l =>
      obtain ⟨p, hp⟩ := h s (by simp)
      simp only [radec, hp]

/-- C171.  Positions printed in the canonical form come back from their texts: the right ascension up to full turns within 7.5 hundredths of an arcsecond, the
declination within half a hundredth. -/
theorem canonical_positions {rnd : ℝ → ℤ} (hr : Nearest rnd) {S : Type} (icrs : S → Except PErr (ℝ × ℝ)) (w p : ℕ) (sep : Sep) (pos : List (AC × AC))
    (h0 : ∀ q ∈ pos, 0 ≤ degrees q.1) (hc : ∀ q ∈ pos, ¬ CarryIntoNegativeDegrees rnd 2 q.2) :
    ∃ ras decs xs ys, List.Forall₂ (fun q t => hmsText rnd w p sep true true q.1 = .ok t) pos ras ∧
      List.Forall₂ (fun q t => dmsText rnd w p sep false true true q.2 = .ok t) pos decs ∧
      radec icrs (.two ras decs) = .ok (xs, ys) ∧
      List.Forall₂ (fun q x => ∃ k : ℤ, |x + 360 * k - degrees q.1| ≤ 15 * (1 / 2 / 10 ^ 2 / 3600)) pos xs ∧
      List.Forall₂ (fun q y => |y - degrees q.2| ≤ 1 / 2 / 10 ^ 2 / 3600) pos ys := by
  have key : ∃ ras decs xs ys, List.Forall₂ (fun q t => hmsText rnd w p sep true true q.1 = .ok t) pos ras ∧
      List.Forall₂ (fun q t => dmsText rnd w p sep false true true q.2 = .ok t) pos decs ∧
      List.Forall₂ (Reads (some true)) ras xs ∧ List.Forall₂ (Reads (some false)) decs ys ∧
      List.Forall₂ (fun q x => ∃ k : ℤ, |x + 360 * k - degrees q.1| ≤ 15 * (1 / 2 / 10 ^ 2 / 3600)) pos xs ∧
      List.Forall₂ (fun q y => |y - degrees q.2| ≤ 1 / 2 / 10 ^ 2 / 3600) pos ys := by
    induction pos with
    | nil => exact ⟨[], [], [], [], .nil, .nil, .nil, .nil, .nil, .nil⟩
    | cons q pos ih =>
      obtain ⟨ras, decs, xs, ys, i1, i2, i3, i4, i5, i6⟩ := ih (fun r hq => h0 r (List.mem_cons_of_mem _ hq)) (fun r hq => hc r (List.mem_cons_of_mem _ hq))
      obtain ⟨t, ht, v, n, hp, ⟨k, hk⟩, hv⟩ := (hms_readback hr w p q.1 (h0 q (by simp)) (some true) false).2 sep
      obtain ⟨t', ht', hp'⟩ := canonical_readback hr w p sep false q.2 (some false) false
      have hd := dmsStr_value hr 2 q.2 (hc q (by simp))
      have hπ := Real.pi_ne_zero
      refine ⟨t :: ras, t' :: decs, _, _, .cons ht i1, .cons ht' i2, .cons ⟨_, _, hp, rfl⟩ i3, .cons ⟨_, _, hp', rfl⟩ i4, .cons ⟨k, ?_⟩ i5, .cons ?_ i6⟩
      · have e : toRadians v (if some true = some false then Unit'.degrees else Unit'.hours) * 180 / Real.pi = 15 * v := by
          simp only [Option.some.injEq, Bool.true_eq_false, if_false, toRadians]
          field_simp; ring
        rw [e, show 15 * v + 360 * (k : ℝ) - degrees q.1 = 15 * (v + 24 * n - degrees q.1 / 15) by rw [hk]; ring, abs_mul, abs_of_pos (by norm_num : (0:ℝ) < 15)]
        exact mul_le_mul_of_nonneg_left hv (by norm_num)
      · have e : toRadians ((Angle.getDmsStr rnd 2 q.2).value 2) (if some false = some true then Unit'.hours else Unit'.degrees) * 180 / Real.pi =
            (Angle.getDmsStr rnd 2 q.2).value 2 := by
          simp only [Option.some.injEq, Bool.false_eq_true, if_false, toRadians]
          field_simp
        rw [e]; exact hd
  obtain ⟨ras, decs, xs, ys, i1, i2, i3, i4, i5, i6⟩ := key
  refine ⟨ras, decs, xs, ys, i1, i2, ((radec_exact icrs ras decs).1 xs ys).2 ⟨?_, i3, i4⟩, i5, i6⟩
  rw [← i1.length_eq, ← i2.length_eq]

/-- C171.  `angular_string_to_dec` gives the angle of the text in degrees or radians; `hms` makes no difference: without a sign, three numbers with colons are
hours even for `hms=False`, with one they are degrees even for `hms=True`. -/
theorem angularString_exact (t : Text) (hms degs : Bool) :
    (∀ x, angularStringToDec t hms degs = .ok x ↔ ∃ v u, parse none false t = .ok (v, u) ∧ x = if degs then toRadians v u * 180 / Real.pi else toRadians v u) ∧
    (angularStringToDec t hms degs = angularStringToDec t (!hms) degs) := by
  refine ⟨fun x => ?_, rfl⟩
  cases h : parse none false t with
  | error e => simp [angularStringToDec, make, h]
  | ok q =>
    obtain ⟨v, u⟩ := q
    simp only [angularStringToDec, (make_text h .none).2, degrees, Except.ok.injEq, Prod.mk.injEq]
    constructor
    · rintro rfl; exact ⟨v, u, ⟨rfl, rfl⟩, rfl⟩
    · rintro ⟨_, _, ⟨rfl, rfl⟩, rfl⟩; rfl

/-- C171.  The argument `hms` asked of a text without unit. -/
theorem angularString_hms {sg : Option Char} {a b c : Text} (hs : IsSign sg) (ha : IsNum a) (hb0 : b ≠ []) (hb : ∀ x ∈ b, Char.isDigit x = true)
    (hc : IsNum c) (h : strip (signText sg ++ a ++ ":".toList ++ b ++ ":".toList ++ c) = signText sg ++ a ++ ":".toList ++ b ++ ":".toList ++ c) (hms : Bool) :
    angularStringToDec (signText sg ++ a ++ ":".toList ++ b ++ ":".toList ++ c) hms true =
      .ok ((if sg = none then 15 else 1) * signed sg (numVal a + numVal b / 60 + numVal c / 3600)) := by
  rw [(angularString_exact _ hms true).1]
  refine ⟨_, _, colons none false hs ha hb0 hb hc h, ?_⟩
  have hπ := Real.pi_ne_zero
  rcases hs with rfl | rfl | rfl <;> simp only [sexUnit, toRadians, reduceCtorEq, if_true, if_false] <;> field_simp
  ring

/-! ## Arrays of attributes -/

theorem rowOf_exact {O : Type} (attr : O → Text → Option AC) (degs : Bool) (o : O) : ∀ (names : List Text) (r : List ℝ),
    rowOf attr degs names o = .ok r ↔ List.Forall₂ (fun n x => ∃ a, attr o n = some a ∧ x = if degs then degrees a else a.val) names r := by
  intro names
  induction names with
  | nil => intro r; simp [rowOf, List.forall₂_nil_left_iff, eq_comm]
  | cons n ns ih =>
    intro r
    rw [List.forall₂_cons_left_iff]
    simp only [rowOf]
    cases h : attr o n with
    | none => simp
    | some a =>
      simp only
      cases h2 : rowOf attr degs ns o with
      | error e =>
        simp only [reduceCtorEq, false_iff]
        rintro ⟨x, r', -, hf, rfl⟩
        rw [(ih r').2 hf] at h2; simp at h2
      | ok r0 =>
        simp only [Except.ok.injEq]
        constructor
        · rintro rfl
          exact ⟨_, r0, ⟨a, rfl, rfl⟩, (ih r0).1 h2, rfl⟩
        · rintro ⟨x, r', ⟨a', ha, rfl⟩, hf, rfl⟩
          have := (ih r').2 hf
          rw [h2] at this
          simp only [Except.ok.injEq, Option.some.injEq] at this ha
          rw [this, ha]

theorem rowsOf_exact {O : Type} (attr : O → Text → Option AC) (degs : Bool) (names : List Text) : ∀ (os : List O) (rs : List (List ℝ)),
    rowsOf attr degs names os = .ok rs ↔ List.Forall₂ (fun o r => rowOf attr degs names o = .ok r) os rs := by
  intro os
  induction os with
  | nil => intro r; simp [rowsOf, List.forall₂_nil_left_iff, eq_comm]
  | cons o os ih =>
    intro rs
    rw [List.forall₂_cons_left_iff]
    simp only [rowsOf]
    cases h : rowOf attr degs names o with
    | error e => simp
    | ok r =>
      simp only
      cases h2 : rowsOf attr degs names os with
      | error e =>
        simp only [reduceCtorEq, false_iff]
        rintro ⟨x, r', -, hf, rfl⟩
        rw [(ih r').2 hf] at h2; simp at h2
      | ok r0 =>
        simp only [Except.ok.injEq]
        constructor
        · rintro rfl
          exact ⟨_, r0, rfl, (ih r0).1 h2, rfl⟩
        · rintro ⟨x, r', rfl, hf, rfl⟩
          have := (ih r').2 hf
          rw [h2] at this
          simp only [Except.ok.injEq] at this
          rw [this]

/-- C172.  `objects_to_coordinate_arrays` with names: one array for each name between the commas (blanks count), holding that attribute of every object in its
order, in degrees or radians; AttributeError exactly if some object lacks one. -/
theorem objectArrays_exact {O : Type} (attr : O → Text → Option AC) (coords : Text) (hc : coords ≠ "auto".toList) (degs : Bool) (os : List O) (hos : os ≠ []) :
    (∀ m, objectArrays attr coords degs os = .ok m → m.length = (ObsDb.splitC ',' coords).length ∧
      ∀ (j : Nat) n, (ObsDb.splitC ',' coords)[j]? = some n → ∃ l, m[j]? = some l ∧ l.length = os.length ∧
        ∀ (i : Nat) o, os[i]? = some o → ∃ a, attr o n = some a ∧ l[i]? = some (if degs then degrees a else a.val)) ∧
    ((∃ m, objectArrays attr coords degs os = .ok m) ↔ ∀ o ∈ os, ∀ n ∈ ObsDb.splitC ',' coords, (attr o n).isSome = true) ∧
    (∀ e, objectArrays attr coords degs os = .error e → e = .attribute) := by
  set names := ObsDb.splitC ',' coords with hn
  have e0 : objectArrays attr coords degs os = (match rowsOf attr degs names os with
      | .error e => .error e
      | .ok rows => .ok (transposed names.length rows)) := by
    simp only [objectArrays, if_neg hc, hn]
  have hrow : ∀ ns o e, rowOf attr degs ns o = .error e → e = .attribute := by
    intro ns o
    induction ns with
    | nil => simp [rowOf]
    | cons n ns ih =>
      intro e
      simp only [rowOf]
      cases attr o n with
      | none => simp only [Except.error.injEq]; exact fun h => h.symm
      | some a =>
        simp only
        cases h : rowOf attr degs ns o with
        | error e' => simp only [Except.error.injEq]; rintro rfl; exact ih _ h
        | ok r => simp
  have hrows : ∀ l e, rowsOf attr degs names l = .error e → e = .attribute := by
    intro l
    induction l with
    | nil => simp [rowsOf]
    | cons o l ih =>
      intro e
      simp only [rowsOf]
      cases h1 : rowOf attr degs names o with
      | error e' => simp only [Except.error.injEq]; rintro rfl; exact hrow _ _ _ h1
      | ok r =>
        simp only
        cases h : rowsOf attr degs names l with
        | error e' => simp only [Except.error.injEq]; rintro rfl; exact ih _ h
        | ok r => simp
  rw [e0]
  refine ⟨?_, ?_, ?_⟩
  · intro m hm
    cases h : rowsOf attr degs names os with
    | error e => rw [h] at hm; simp at hm
    | ok rows =>
      rw [h] at hm
      simp only [Except.ok.injEq] at hm
      have hf := (rowsOf_exact attr degs names os rows).1 h
      have hl := hf.length_eq
      have hne : rows ≠ [] := by
        intro e; rw [e] at hl; exact hos (List.length_eq_zero_iff.1 (by simpa using hl))
      rw [transposed, if_neg hne] at hm
      subst hm
      refine ⟨by simp, ?_⟩
      intro j n hj
      have hjl : j < names.length := (List.getElem?_eq_some_iff.1 hj).1
      refine ⟨rows.map fun r => r.getD j 0, by simp [hjl], by simp [hl], ?_⟩
      intro i o hi
      obtain ⟨hi', hio⟩ := List.getElem?_eq_some_iff.1 hi
      have hri : i < rows.length := hl ▸ hi'
      have hro := (List.forall₂_iff_get.1 hf).2 i hi' hri
      rw [rowOf_exact] at hro
      have hll := hro.length_eq
      obtain ⟨a, ha, hx⟩ := (List.forall₂_iff_get.1 hro).2 j hjl (by rw [← hll]; exact hjl)
      have e1 : names.get ⟨j, hjl⟩ = n := by simpa [List.getElem?_eq_some_iff, hjl] using hj
      have e2 : os.get ⟨i, hi'⟩ = o := by simpa using hio
      rw [e1, e2] at ha
      refine ⟨a, ha, ?_⟩
      rw [← hx]
      have : j < rows[i].length := by simpa using hll ▸ hjl
      simp [hri, List.getD, this]
  · constructor
    · rintro ⟨m, hm⟩ o ho n hn'
      cases h : rowsOf attr degs names os with
      | error e => rw [h] at hm; simp at hm
      | ok rows =>
        have hf := (rowsOf_exact attr degs names os rows).1 h
        obtain ⟨i, hi, rfl⟩ := List.mem_iff_getElem.1 ho
        have hro := (List.forall₂_iff_get.1 hf).2 i hi (by rw [← hf.length_eq]; exact hi)
        rw [rowOf_exact] at hro
        obtain ⟨j, hj, rfl⟩ := List.mem_iff_getElem.1 hn'
        obtain ⟨a, ha, -⟩ := (List.forall₂_iff_get.1 hro).2 j hj (by rw [← hro.length_eq]; exact hj)
        simp only [List.get_eq_getElem] at ha
        simp [ha]
    · intro h
      have r1 : ∀ ns o, (∀ n ∈ ns, (attr o n).isSome = true) → ∃ r, rowOf attr degs ns o = .ok r := by
        intro ns o
        induction ns with
        | nil => intro _; exact ⟨[], rfl⟩
        | cons n ns ih =>
          intro h
          obtain ⟨a, ha⟩ := Option.isSome_iff_exists.1 (h n (by simp))
          obtain ⟨r, hr⟩ := ih (fun n hn => h n (List.mem_cons_of_mem _ hn))
          exact ⟨(if degs then degrees a else a.val) :: r, by simp only [rowOf, ha, hr]⟩
      have r2 : ∀ l, (∀ o ∈ l, ∀ n ∈ names, (attr o n).isSome = true) → ∃ r, rowsOf attr degs names l = .ok r := by
        intro l
        induction l with
        | nil => intro _; exact ⟨[], rfl⟩
        | cons o l ih =>
          intro h
          obtain ⟨a, ha⟩ := r1 names o (h o (by simp))
          obtain ⟨r, hr⟩ := ih (fun n hn => h n (List.mem_cons_of_mem _ hn))
          exact ⟨a :: r, by simp only [rowsOf, ha, hr]⟩
      obtain ⟨r, hr⟩ := r2 os h
      rw [hr]
      exact ⟨_, rfl⟩
  · intro e he
    cases h : rowsOf attr degs names os with
    | error e' => rw [h] at he; simp only [Except.error.injEq] at he; exact he ▸ hrows _ _ h
    | ok r => rw [h] at he; simp at he

/-- C172.  The default `coords='auto'` raises NameError for every list but the empty one, whose array is empty for any names. -/
theorem auto_fails {O : Type} (attr : O → Text → Option AC) (degs : Bool) (os : List O) :
    (os ≠ [] → objectArrays attr "auto".toList degs os = .error .name) ∧ (∀ coords, objectArrays attr coords degs ([] : List O) = .ok []) := by
  constructor
  · intro h; simp [objectArrays, h]
  · intro coords
    unfold objectArrays
    split
    · simp
    · simp [rowsOf, transposed]

/-! ## Projected separations -/

theorem ohat_unit {o : V3} (h : o ≠ (0, 0, 0)) : ∃ s : ℝ, 0 < s ∧ ohat o = (o.1 / s, o.2.1 / s, o.2.2 / s) ∧ s ^ 2 = dot o o ∧ dot (ohat o) (ohat o) = 1 := by
  have hp : 0 < dot o o := by
    obtain ⟨x, y, z⟩ := o
    unfold dot
    simp only [ne_eq, Prod.mk.injEq, not_and_or] at h
    rcases h with h | h | h
    · nlinarith [mul_self_nonneg y, mul_self_nonneg z, mul_self_pos.2 h]
    · nlinarith [mul_self_nonneg x, mul_self_nonneg z, mul_self_pos.2 h]
    · nlinarith [mul_self_nonneg y, mul_self_nonneg x, mul_self_pos.2 h]
  have hs : (dot o o) ^ (-(1 / 2) : ℝ) = 1 / √(dot o o) := by
    rw [Real.rpow_neg hp.le, Real.sqrt_eq_rpow, one_div, one_div]
  have h0 : 0 < √(dot o o) := Real.sqrt_pos.2 hp
  have hsq : √(dot o o) ^ 2 = dot o o := Real.sq_sqrt hp.le
  refine ⟨√(dot o o), h0, ?_, hsq, ?_⟩
  · unfold ohat; rw [hs]; simp only [mul_one_div]
  · have e : ohat o = (o.1 / √(dot o o), o.2.1 / √(dot o o), o.2.2 / √(dot o o)) := by unfold ohat; rw [hs]; simp only [mul_one_div]
    rw [e]
    have : dot (o.1 / √(dot o o), o.2.1 / √(dot o o), o.2.2 / √(dot o o)) (o.1 / √(dot o o), o.2.1 / √(dot o o), o.2.2 / √(dot o o)) = dot o o / √(dot o o) ^ 2 := by
      unfold dot; field_simp
    rw [this, hsq, div_self hp.ne']

/-- The distance of a point from the line of sight through the origin along the unit vector `u`. -/
def projSep (p u : V3) : ℝ := √(dot (p.1 - dot p u * u.1, p.2.1 - dot p u * u.2.1, p.2.2 - dot p u * u.2.2) (p.1 - dot p u * u.1, p.2.1 - dot p u * u.2.1, p.2.2 - dot p u * u.2.2))

/-- C172.  `offset_proj_sep` accepts exactly sequences of triples (a plain triple, as any flat sequence, is IndexError), and gives for every point and every
direction the component of the point *along* the line of sight. -/
theorem offset_exact (pts : List V3) (os : List V3) (hne : os ≠ []) (sph : Sph) :
    offsetProjSep pts (.rows (os.map fun o => [o.1, o.2.1, o.2.2])) sph = .ok (pts.map fun p => os.map fun o => dot (cart sph p) (ohat o)) ∧
    (∀ l, offsetProjSep pts (.flat l) sph = .error .index) ∧
    (∀ rs, rs ≠ [] → (∃ r ∈ rs, r.length ≠ 3) → offsetProjSep pts (.rows rs) sph = .error .value) := by
  have hm : ∀ os : List V3, (os.map fun o => [o.1, o.2.1, o.2.2]).mapM asV3 = some os := by
    intro os
    induction os with
    | nil => rfl
    | cons o os ih => rw [List.map_cons, List.mapM_cons, ih]; rfl
  have hbad : ∀ rs : List (List ℝ), (∃ r ∈ rs, r.length ≠ 3) → rs.mapM asV3 = none := by
    intro rs
    induction rs with
    | nil => rintro ⟨r, hr, -⟩; simp at hr
    | cons r rs ih =>
      rintro ⟨r', hr', h3⟩
      rw [List.mapM_cons]
      rcases List.mem_cons.1 hr' with rfl | hr'
      · have : asV3 r' = none := by
          match r' with
          | [] => rfl
          | [_] => rfl
          | [_, _] => rfl
          | [_, _, _] => simp at h3
          | _ :: _ :: _ :: _ :: _ => rfl
        rw [this]; rfl
      · rw [ih ⟨r', hr', h3⟩]
        cases asV3 r <;> rfl
  refine ⟨?_, fun l => rfl, ?_⟩
  · cases os with
    | nil => exact absurd rfl hne
    | cons o os =>
      have := hm (o :: os)
      rw [List.map_cons] at this ⊢
      simp only [offsetProjSep, this]
  · intro rs h0 h
    cases rs with
    | nil => exact absurd rfl h0
    | cons r rs => simp only [offsetProjSep, hbad _ h]

/-- C172.  The three readings of a point: as it is, or a distance, polar angle and azimuth in radians or in degrees. -/
theorem offset_point (p : V3) (r t φ : ℝ) (o : V3) :
    offsetProjSep [p] (.rows [[o.1, o.2.1, o.2.2]]) .no = .ok [[dot p (ohat o)]] ∧
    offsetProjSep [(r, t, φ)] (.rows [[o.1, o.2.1, o.2.2]]) .radians =
      .ok [[dot (r * Real.sin t * Real.cos φ, r * Real.sin t * Real.sin φ, r * Real.cos t) (ohat o)]] ∧
    offsetProjSep [(r, t, φ)] (.rows [[o.1, o.2.1, o.2.2]]) .degrees =
      .ok [[dot (r * Real.sin (t * Real.pi / 180) * Real.cos (φ * Real.pi / 180), r * Real.sin (t * Real.pi / 180) * Real.sin (φ * Real.pi / 180),
        r * Real.cos (t * Real.pi / 180)) (ohat o)]] := by
  have h := fun q sph => (offset_exact [q] [o] (by simp) sph).1
  simp only [List.map_cons, List.map_nil] at h
  exact ⟨h _ _, h _ _, h _ _⟩

/-- C172.  It is not the projected separation: the two are the legs of a right triangle, and agree exactly where the point is seen at 45 degrees on the near
side. -/
theorem offset_not_projected (p o : V3) (h : o ≠ (0, 0, 0)) :
    dot p (ohat o) ^ 2 + projSep p (ohat o) ^ 2 = dot p p ∧
    (dot p (ohat o) = projSep p (ohat o) ↔ 0 ≤ dot p o ∧ 2 * dot p o ^ 2 = dot p p * dot o o) := by
  obtain ⟨s, hs, ho, hss, hu⟩ := ohat_unit h
  set u := ohat o with hu'
  have hexp : dot (p.1 - dot p u * u.1, p.2.1 - dot p u * u.2.1, p.2.2 - dot p u * u.2.2) (p.1 - dot p u * u.1, p.2.1 - dot p u * u.2.1, p.2.2 - dot p u * u.2.2)
      = dot p p - dot p u ^ 2 := by
    have : dot (p.1 - dot p u * u.1, p.2.1 - dot p u * u.2.1, p.2.2 - dot p u * u.2.2) (p.1 - dot p u * u.1, p.2.1 - dot p u * u.2.1, p.2.2 - dot p u * u.2.2)
      = dot p p - 2 * dot p u * dot p u + dot p u ^ 2 * dot u u := by unfold dot; ring
    rw [this, hu]; ring
  have hnn : 0 ≤ dot p p - dot p u ^ 2 := by
    rw [← hexp]; unfold dot
    nlinarith [mul_self_nonneg (p.1 - dot p u * u.1), mul_self_nonneg (p.2.1 - dot p u * u.2.1), mul_self_nonneg (p.2.2 - dot p u * u.2.2)]
  have hsq : projSep p u ^ 2 = dot p p - dot p u ^ 2 := by
    unfold projSep; rw [hexp, Real.sq_sqrt hnn]
  have hpu : dot p u = dot p o / s := by rw [ho]; unfold dot; field_simp
  refine ⟨by rw [hsq]; ring, ?_⟩
  have h0 : 0 ≤ projSep p u := Real.sqrt_nonneg _
  have k1 : 0 ≤ dot p u ↔ 0 ≤ dot p o := by
    rw [hpu]
    exact ⟨fun h => by have := mul_nonneg h hs.le; rwa [div_mul_cancel₀ _ hs.ne'] at this, fun h => div_nonneg h hs.le⟩
  have k2 : dot p u ^ 2 = dot p o ^ 2 / dot o o := by rw [hpu, div_pow, hss]
  have ho0 : 0 < dot o o := by rw [← hss]; positivity
  constructor
  · intro e
    refine ⟨k1.1 (e ▸ h0), ?_⟩
    rw [← e, k2] at hsq
    field_simp at hsq
    linarith
  · rintro ⟨a, b⟩
    have : dot p u ^ 2 = projSep p u ^ 2 := by
      rw [hsq, k2]; field_simp; linarith
    exact (pow_left_inj₀ (k1.2 a) h0 (by norm_num)).1 this

example : (1, 1, 0) ≠ ((0, 0, 0) : V3) ∧ 0 ≤ dot (1, 0, 0) (1, 1, 0) ∧ 2 * dot (1, 0, 0) (1, 1, 0) ^ 2 = dot (1, 0, 0) (1, 0, 0) * dot (1, 1, 0) (1, 1, 0) := by
  simp [dot]; norm_num

example : dot (1, 0, 0) (ohat (1, 0, 0)) = 1 ∧ projSep (1, 0, 0) (ohat (1, 0, 0)) = 0 := by
  have : ohat (1, 0, 0) = (1, 0, 0) := by simp [ohat, dot]
  rw [this]; simp [dot, projSep]

end

end Verif.PosArrays

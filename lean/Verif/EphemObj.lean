import Mathlib.Analysis.SpecialFunctions.Trigonometric.Basic
import Mathlib.Analysis.Real.Pi.Bounds
import Mathlib.Data.Real.Basic
import Mathlib.Tactic.Linarith
import Mathlib.Tactic.Ring
import Mathlib.Tactic.NormNum
import Mathlib.Tactic.FieldSimp
import Mathlib.Tactic.LinearCombination

/-!
# Objects that move with time (astropysics/coords/ephems.py 82-394, 774-812) (C109, C110)

`EphemerisObject`: its date, the hook run when the date changes, the valid range and its warnings, calling it for one or many dates, the
shared table of solar system objects; and `ProperMotionObject`.  Times are real numbers; the conversion of calendar dates and of coordinates
are parameters.
-/

namespace Verif.EphemObj

/-! ## Model of EphemerisObject -/

inductive Err where
  | value | key | coord (n : ℕ)
deriving DecidableEq, Repr

/-- What can be assigned to `jd` (ephems.py 127-139): a number, 'now', or a datetime or sequence (`Cal`). -/
inductive Val (Cal : Type) where
  | num (x : ℝ)
  | now
  | cal (c : Cal)

/-- The surroundings of an object: the clock, `calendar_to_jd`, the conversion of a result to a coordinate class, and what the subclass defines:
`_jdhook` (what it computes from the new date) and `_getCoordObj`, which may look at the date and at what the hook stored. -/
structure Kind (Cal H C K : Type) where
  clock : ℝ
  calToJd : Cal → Except Err ℝ
  hook : ℝ → H
  coord : ℝ → H → Except Err C
  convert : K → C → Except Err C

/-- An object: the date, what the hook stored, the valid range, and the warnings given so far (newest first; `true`: above the range). -/
structure Obj (H : Type) where
  jd : ℝ
  hooked : H
  range : Option ℝ × Option ℝ
  warned : List (ℝ × Bool)

variable {Cal H C K : Type}

/-- Conversion of an assigned value to a Julian date, ephems.py 132-137. -/
def toJd (k : Kind Cal H C K) : Val Cal → Except Err ℝ
  | .num x => .ok x
  | .now => .ok k.clock
  | .cal c => k.calToJd c

/-- The warning for a date, ephems.py 138-143. -/
noncomputable def warnFor (r : Option ℝ × Option ℝ) (jd : ℝ) : Option (ℝ × Bool) :=
  match r with
  | (some lo, some hi) => if jd < lo then some (jd, false) else if jd > hi then some (jd, true) else none
  | (some lo, none) => if jd < lo then some (jd, false) else none
  | (none, some hi) => if jd > hi then some (jd, true) else none
  | (none, none) => none

/-- The number part of `_setJd`: warn, hook, store, ephems.py 138-146. -/
noncomputable def Obj.put (k : Kind Cal H C K) (o : Obj H) (jd : ℝ) : Obj H :=
  { o with jd := jd, hooked := k.hook jd, warned := (warnFor o.range jd).toList ++ o.warned }

/-- `obj.jd = v`, ephems.py 127-146: a failing conversion leaves the object alone. -/
noncomputable def Obj.setJd (k : Kind Cal H C K) (o : Obj H) (v : Val Cal) : Except Err Unit × Obj H :=
  match toJd k v with
  | .error e => (.error e, o)
  | .ok jd => (.ok (), o.put k jd)

/-- A bound of the valid range, ephems.py 188-197. -/
def toBound (k : Kind Cal H C K) : Option (Val Cal) → Except Err (Option ℝ)
  | none => .ok none
  | some v => match toJd k v with
    | .ok x => .ok (some x)
    | .error e => .error e

/-- `_setValidjdrange`, ephems.py 161-198. -/
def toRange (k : Kind Cal H C K) : Option (Option (Val Cal) × Option (Val Cal)) → Except Err (Option ℝ × Option ℝ)
  | none => .ok (none, none)
  | some (a, b) => match toBound k a, toBound k b with
    | .ok x, .ok y => .ok (x, y)
    | .error e, _ => .error e
    | _, .error e => .error e

/-- jd2000. -/
def jd2000 : ℝ := 2451545

/-- The constructor, ephems.py 109-125. -/
def create (k : Kind Cal H C K) (r : Option (Option (Val Cal) × Option (Val Cal))) : Except Err (Obj H) :=
  match toRange k r with
  | .error e => .error e
  | .ok r => .ok ⟨jd2000, k.hook jd2000, r, []⟩

/-- `_getCoordObj()` of an object. -/
def Obj.coords (k : Kind Cal H C K) (o : Obj H) : Except Err C := k.coord o.jd o.hooked

/-- The loop of `__call__`, ephems.py 236-239. -/
noncomputable def Obj.loop (k : Kind Cal H C K) (o : Obj H) : List (Val Cal) → Except Err (List C) × Obj H
  | [] => (.ok [], o)
  | v :: vs => match o.setJd k v with
    | (.error e, o1) => (.error e, o1)
    | (.ok (), o1) => match o1.coords k with
      | .error e => (.error e, o1)
      | .ok c => match o1.loop k vs with
        | (.error e, o2) => (.error e, o2)
        | (.ok cs, o2) => (.ok (c :: cs), o2)

/-- The dates given to a call: none, one (a scalar or an array without dimensions), or many (a sequence, or an array, which is flattened). -/
inductive Dates (Cal : Type) where
  | none
  | one (v : Val Cal)
  | many (vs : List (Val Cal))

/-- What a call returns: one object or a list. -/
inductive Out (C : Type) where
  | single (c : C)
  | list (cs : List C)

def single : List C → Except Err (Out C)
  | c :: _ => .ok (.single c)
  | [] => .error .key

/-- Conversion of the results, ephems.py 244-245. -/
def convertAll (k : Kind Cal H C K) : Option K → List C → Except Err (List C)
  | none, cs => .ok cs
  | some s, cs => cs.mapM (k.convert s)

def finish (k : Kind Cal H C K) (isSingle : Bool) (s : Option K) : Except Err (List C) → Except Err (Out C)
  | .error e => .error e
  | .ok cs => match convertAll k s cs with
    | .error e => .error e
    | .ok cs => if isSingle then single cs else .ok (.list cs)

/-- `__call__`, ephems.py 200-250: the date is put back whatever happens. -/
noncomputable def Obj.call (k : Kind Cal H C K) (o : Obj H) (d : Dates Cal) (s : Option K) : Except Err (Out C) × Obj H :=
  match d with
  | .none => (finish k true s ((o.coords k).map fun c => [c]), o)
  | .one v => let r := o.loop k [v]; (finish k true s r.1, r.2.put k o.jd)
  | .many vs => let r := o.loop k vs; (finish k false s r.1, r.2.put k o.jd)

/-! ## Specification -/

/-- The coordinates at a date: a function of the date alone. -/
def coordsAt (k : Kind Cal H C K) (v : Val Cal) : Except Err C :=
  match toJd k v with
  | .ok jd => k.coord jd (k.hook jd)
  | .error e => .error e

/-- The dates that are reached: up to the first failure. -/
def reached (k : Kind Cal H C K) : List (Val Cal) → List ℝ
  | [] => []
  | v :: vs => match toJd k v with
    | .error _ => []
    | .ok jd => match k.coord jd (k.hook jd) with
      | .error _ => [jd]
      | .ok _ => jd :: reached k vs

/-- What the hook stored belongs to the date. -/
def Obj.Consistent (k : Kind Cal H C K) (o : Obj H) : Prop := o.hooked = k.hook o.jd

/-- A date outside the range. -/
def Outside (r : Option ℝ × Option ℝ) (jd : ℝ) : Prop := (∃ lo, r.1 = some lo ∧ jd < lo) ∨ ∃ hi, r.2 = some hi ∧ hi < jd

/-! ## C109 -/

/-- A warning is given exactly for dates outside the range; an absent bound never warns. -/
theorem warn_iff (r : Option ℝ × Option ℝ) (jd : ℝ) : (warnFor r jd).isSome ↔ Outside r jd := by
  obtain ⟨lo, hi⟩ := r
  unfold Outside
  cases lo <;> cases hi <;> simp [warnFor] <;> split_ifs <;> simp_all <;> linarith

/-- The warning names the date and whether it is above: for any range, with either bound possibly missing, a date below the lower bound is reported as below, and
a date above the upper bound (and not below the lower one) as above. -/
theorem warn_content (r : Option ℝ × Option ℝ) (jd : ℝ) :
    ((∃ lo, r.1 = some lo ∧ jd < lo) → warnFor r jd = some (jd, false)) ∧
    ((∃ hi, r.2 = some hi ∧ hi < jd) → (∀ lo, r.1 = some lo → lo ≤ jd) → warnFor r jd = some (jd, true)) ∧
    ((∀ lo, r.1 = some lo → lo ≤ jd) → (∀ hi, r.2 = some hi → jd ≤ hi) → warnFor r jd = none) := by
  obtain ⟨lo, hi⟩ := r
  cases lo <;> cases hi <;> simp [warnFor] <;> (try constructor) <;> intros <;> (try split_ifs) <;> (try simp_all) <;> (try linarith)

theorem put_consistent (k : Kind Cal H C K) (o : Obj H) (jd : ℝ) : (o.put k jd).Consistent k := rfl

theorem setJd_consistent (k : Kind Cal H C K) (o : Obj H) (v : Val Cal) (h : o.Consistent k) : (o.setJd k v).2.Consistent k := by
  unfold Obj.setJd
  split
  · exact h
  · exact put_consistent k o _

/-- Setting the date: it is stored, a warning is added exactly if it is outside the range, and a date that cannot be converted changes nothing. -/
theorem setJd_spec (k : Kind Cal H C K) (o : Obj H) (v : Val Cal) :
    (∀ e, toJd k v = .error e → o.setJd k v = (.error e, o)) ∧
    (∀ jd, toJd k v = .ok jd → (o.setJd k v).1 = .ok () ∧ (o.setJd k v).2.jd = jd ∧ (o.setJd k v).2.range = o.range ∧
      (Outside o.range jd → ∃ b, (o.setJd k v).2.warned = (jd, b) :: o.warned) ∧ (¬ Outside o.range jd → (o.setJd k v).2.warned = o.warned)) := by
  refine ⟨fun e h => by simp [Obj.setJd, h], fun jd h => ?_⟩
  have hw := warn_iff o.range jd
  simp only [Obj.setJd, h, Obj.put]
  refine ⟨trivial, trivial, trivial, fun ho => ?_, fun ho => ?_⟩
  · obtain ⟨w, hwe⟩ := Option.isSome_iff_exists.1 (hw.2 ho)
    have : w.1 = jd := by
      revert hwe
      generalize o.range = r
      obtain ⟨lo, hi⟩ := r
      cases lo <;> cases hi <;> intro h <;> simp only [warnFor] at h <;> (try split_ifs at h) <;> cases h <;> rfl
    refine ⟨w.2, ?_⟩
    rw [hwe, ← this]; rfl
  · rcases hwn : warnFor o.range jd with _ | w
    · rfl
    · exact absurd (hw.1 (by rw [hwn]; rfl)) ho

theorem loop_spec (k : Kind Cal H C K) (vs : List (Val Cal)) : ∀ o : Obj H,
    (o.loop k vs).1 = vs.mapM (coordsAt k) ∧ (o.loop k vs).2.range = o.range ∧
    (o.loop k vs).2.warned = (reached k vs).reverse.filterMap (warnFor o.range) ++ o.warned := by
  induction vs with
  | nil => intro o; exact ⟨rfl, rfl, rfl⟩
  | cons v vs ih =>
    intro o
    rcases hv : toJd k v with e | jd
    · have hc : coordsAt k v = .error e := by simp [coordsAt, hv]
      have hr : reached k (v :: vs) = [] := by simp [reached, hv]
      have hl : o.loop k (v :: vs) = (.error e, o) := by simp [Obj.loop, Obj.setJd, hv]
      rw [hl, hr, List.mapM_cons, hc]
      exact ⟨rfl, rfl, rfl⟩
    · have hs : o.setJd k v = (.ok (), o.put k jd) := by simp [Obj.setJd, hv]
      rcases hc : k.coord jd (k.hook jd) with e | c
      · have hca : coordsAt k v = .error e := by simp [coordsAt, hv, hc]
        have hr : reached k (v :: vs) = [jd] := by simp [reached, hv, hc]
        have hco : (o.put k jd).coords k = .error e := hc
        have hl : o.loop k (v :: vs) = (.error e, o.put k jd) := by simp [Obj.loop, hs, hco]
        rw [hl, hr, List.mapM_cons, hca]
        refine ⟨rfl, rfl, ?_⟩
        simp only [Obj.put, List.reverse_singleton]
        cases hw : warnFor o.range jd <;> simp [List.filterMap_cons, hw]
      · have hca : coordsAt k v = .ok c := by simp [coordsAt, hv, hc]
        have hr : reached k (v :: vs) = jd :: reached k vs := by simp [reached, hv, hc]
        have hco : (o.put k jd).coords k = .ok c := hc
        obtain ⟨i1, i2, i3⟩ := ih (o.put k jd)
        have hl : o.loop k (v :: vs) = (match (o.put k jd).loop k vs with
            | (.error e, o2) => (.error e, o2)
            | (.ok cs, o2) => (.ok (c :: cs), o2)) := by
          rw [Obj.loop]; simp only [hs, hco]
        rw [hr, List.mapM_cons, hca]
        have hw : ((jd :: reached k vs).reverse.filterMap (warnFor o.range)) ++ o.warned =
            (reached k vs).reverse.filterMap (warnFor o.range) ++ ((warnFor o.range jd).toList ++ o.warned) := by
          rw [List.reverse_cons, List.filterMap_append]
          cases hw : warnFor o.range jd <;> simp [List.filterMap_cons, hw]
        rw [hl, hw]
        rcases hrest : (o.put k jd).loop k vs with ⟨_ | cs, o2⟩ <;> rw [hrest] at i1 i2 i3 <;> simp only at i1 i2 i3 ⊢ <;>
          rw [← i1] <;> exact ⟨rfl, i2, i3⟩

/-- Calling with a list of dates returns the coordinates at those dates, in the order given, whatever the date of the object was. -/
theorem call_many (k : Kind Cal H C K) (o : Obj H) (vs : List (Val Cal)) (cs : List C) (h : vs.mapM (coordsAt k) = .ok cs) :
    (o.call k (.many vs) none).1 = .ok (.list cs) ∧ cs.length = vs.length := by
  constructor
  · simp [Obj.call, (loop_spec k vs o).1, h, finish, convertAll]
  · have : ∀ (vs : List (Val Cal)) (cs : List C), vs.mapM (coordsAt k) = .ok cs → cs.length = vs.length := by
      intro vs
      induction vs with
      | nil => intro cs h; cases h; rfl
      | cons v vs ih =>
        intro cs h
        rw [List.mapM_cons] at h
        rcases hc : coordsAt k v with e | c
        · rw [hc] at h; cases h
        · rcases hm : vs.mapM (coordsAt k) with e | ds
          · rw [hc, hm] at h; cases h
          · rw [hc, hm] at h; cases h
            simp [ih ds hm]
    exact this vs cs h

/-- Each element of the result belongs to its date. -/
theorem call_many_get (k : Kind Cal H C K) (o : Obj H) (vs : List (Val Cal)) (cs : List C) (h : (o.call k (.many vs) none).1 = .ok (.list cs))
    (i : ℕ) (v : Val Cal) (hv : vs[i]? = some v) : ∃ c, cs[i]? = some c ∧ coordsAt k v = .ok c := by
  have hm : vs.mapM (coordsAt k) = .ok cs := by
    simp only [Obj.call, (loop_spec k vs o).1] at h
    rcases hm : vs.mapM (coordsAt k) with e | ds
    · rw [hm] at h; simp [finish] at h
    · rw [hm] at h; simpa [finish, convertAll] using h
  clear h
  induction vs generalizing cs i with
  | nil => simp at hv
  | cons w vs ih =>
    rw [List.mapM_cons] at hm
    rcases hc : coordsAt k w with e | c
    · rw [hc] at hm; cases hm
    · rcases hd : vs.mapM (coordsAt k) with e | ds
      · rw [hc, hd] at hm; cases hm
      · rw [hc, hd] at hm; cases hm
        cases i with
        | zero => simp only [List.getElem?_cons_zero, Option.some.injEq] at hv; subst hv; exact ⟨c, rfl, hc⟩
        | succ i =>
          simp only [List.getElem?_cons_succ] at hv
          obtain ⟨d, hd1, hd2⟩ := ih ds i hv hd
          exact ⟨d, by simpa using hd1, hd2⟩

/-- Calling with one date returns that date's coordinates; with none, those at the object's own date. -/
theorem call_one (k : Kind Cal H C K) (o : Obj H) (v : Val Cal) (c : C) (h : coordsAt k v = .ok c) :
    (o.call k (.one v) none).1 = .ok (.single c) := by
  have : [v].mapM (coordsAt k) = .ok [c] := by rw [List.mapM_cons, h]; rfl
  simp [Obj.call, (loop_spec k [v] o).1, this, finish, convertAll, single]

theorem call_none (k : Kind Cal H C K) (o : Obj H) (ho : o.Consistent k) (c : C) (h : coordsAt k (.num o.jd) = .ok c) :
    o.call k .none none = (.ok (.single c), o) := by
  have : o.coords k = .ok c := by
    have h' : k.coord o.jd (k.hook o.jd) = .ok c := h
    unfold Obj.coords; rw [ho]; exact h'
  simp [Obj.call, this, finish, convertAll, single, Except.map]

/-- With a coordinate class every result is converted. -/
theorem call_converts (k : Kind Cal H C K) (o : Obj H) (vs : List (Val Cal)) (s : K) (cs ds : List C)
    (h : vs.mapM (coordsAt k) = .ok cs) (h2 : cs.mapM (k.convert s) = .ok ds) : (o.call k (.many vs) (some s)).1 = .ok (.list ds) := by
  simp [Obj.call, (loop_spec k vs o).1, h, finish, convertAll, h2]

/-- If some date cannot be computed the call fails with the error of the first such date. -/
theorem call_error (k : Kind Cal H C K) (o : Obj H) (pre post : List (Val Cal)) (v : Val Cal) (cs : List C) (e : Err) (s : Option K)
    (hp : pre.mapM (coordsAt k) = .ok cs) (hv : coordsAt k v = .error e) : (o.call k (.many (pre ++ v :: post)) s).1 = .error e := by
  have : (pre ++ v :: post).mapM (coordsAt k) = .error e := by
    rw [List.mapM_append, hp, List.mapM_cons, hv]; rfl
  simp [Obj.call, (loop_spec k _ o).1, this, finish]

/-- Whether a call succeeds or fails, afterwards the object has the date and the stored values it had before: calls do not disturb it. -/
theorem call_restores (k : Kind Cal H C K) (o : Obj H) (ho : o.Consistent k) (d : Dates Cal) (s : Option K) :
    (o.call k d s).2.jd = o.jd ∧ (o.call k d s).2.hooked = o.hooked ∧ (o.call k d s).2.range = o.range := by
  cases d with
  | none => exact ⟨rfl, rfl, rfl⟩
  | one v => exact ⟨rfl, ho.symm, (loop_spec k [v] o).2.1⟩
  | many vs => exact ⟨rfl, ho.symm, (loop_spec k vs o).2.1⟩

/-- The warnings of a call: one for every date reached that is outside the range, and one more, for the old date, if that is outside. -/
theorem call_warnings (k : Kind Cal H C K) (o : Obj H) (vs : List (Val Cal)) (s : Option K) :
    (o.call k (.many vs) s).2.warned = (warnFor o.range o.jd).toList ++ (reached k vs).reverse.filterMap (warnFor o.range) ++ o.warned := by
  obtain ⟨_, h2, h3⟩ := loop_spec k vs o
  simp only [Obj.call, Obj.put, h2, h3, List.append_assoc]

/-- An object whose date is outside its range warns at every call, even for dates inside. -/
theorem call_warns_again (k : Kind Cal H C K) (o : Obj H) (vs : List (Val Cal)) (s : Option K) (ho : Outside o.range o.jd)
    (_hv : ∀ jd ∈ reached k vs, ¬ Outside o.range jd) : (o.call k (.many vs) s).2.warned.length = o.warned.length + 1 := by
  rw [call_warnings]
  have h0 : (reached k vs).reverse.filterMap (warnFor o.range) = [] := by
    rw [List.filterMap_eq_nil_iff]
    intro jd hj
    by_contra hne
    exact _hv jd (List.mem_reverse.1 hj) ((warn_iff _ _).1 (Option.isSome_iff_ne_none.2 hne))
  obtain ⟨w, hw⟩ := Option.isSome_iff_exists.1 ((warn_iff _ _).2 ho)
  rw [h0, hw]; simp

/-! ### Histories -/

inductive Op (Cal K : Type) where
  | set (v : Val Cal)
  | call (d : Dates Cal) (s : Option K)

noncomputable def Obj.step (k : Kind Cal H C K) (o : Obj H) : Op Cal K → Obj H
  | .set v => (o.setJd k v).2
  | .call d s => (o.call k d s).2

/-- The last date that was successfully assigned. -/
def lastSet (k : Kind Cal H C K) (start : ℝ) : List (Op Cal K) → ℝ
  | [] => start
  | .set v :: ops => match toJd k v with
    | .ok jd => lastSet k jd ops
    | .error _ => lastSet k start ops
  | .call _ _ :: ops => lastSet k start ops

/-- After any sequence of assignments and calls the date is the last one assigned, and everything derived from the date is up to date. -/
theorem history (k : Kind Cal H C K) (r : Option (Option (Val Cal) × Option (Val Cal))) (o : Obj H) (h : create k r = .ok o) (ops : List (Op Cal K)) :
    (ops.foldl (Obj.step k) o).jd = lastSet k jd2000 ops ∧ (ops.foldl (Obj.step k) o).Consistent k ∧ (ops.foldl (Obj.step k) o).range = o.range := by
  have h0 : o.jd = jd2000 ∧ o.Consistent k := by
    unfold create at h
    split at h
    · cases h
    · cases h; exact ⟨rfl, rfl⟩
  obtain ⟨hj, hc⟩ := h0
  rw [← hj]
  clear h hj
  induction ops generalizing o with
  | nil => exact ⟨rfl, hc, rfl⟩
  | cons op ops ih =>
    rw [List.foldl_cons]
    cases op with
    | set v =>
      rcases hv : toJd k v with e | jd
      · have hs : (o.setJd k v).2 = o := by simp [Obj.setJd, hv]
        simp only [Obj.step, hs, lastSet, hv]
        exact ih o hc
      · have hs : (o.setJd k v).2 = o.put k jd := by simp [Obj.setJd, hv]
        simp only [Obj.step, hs, lastSet, hv]
        exact ih (o.put k jd) (put_consistent k o jd)
    | call d s =>
      obtain ⟨h1, h2, h3⟩ := call_restores k o hc d s
      have hc' : (o.call k d s).2.Consistent k := by
        unfold Obj.Consistent; rw [h1, h2]; exact hc
      have := ih _ hc'
      simp only [Obj.step, lastSet]
      rw [h1, h3] at this
      exact this

/-- The range given to the constructor: absent, or with absent bounds, means no bound. -/
theorem range_spec (k : Kind Cal H C K) (a b : Option (Val Cal)) (x y : Option ℝ) (ha : toBound k a = .ok x) (hb : toBound k b = .ok y) :
    toRange k none = .ok (none, none) ∧ toRange k (some (a, b)) = .ok (x, y) ∧ toBound k none = .ok none := by
  refine ⟨rfl, ?_, rfl⟩
  simp [toRange, ha, hb]

/-! ### The shared table, ephems.py 774-812 -/

/-- An entry of the table: a class (a new object at every use) or an object. -/
inductive Entry (H : Type) where
  | cls (r : Option ℝ × Option ℝ)
  | obj (o : Obj H)

abbrev Table (H : Type) := String → Option (Entry H)

def newObj (k : Kind Cal H C K) (r : Option ℝ × Option ℝ) : Obj H := ⟨jd2000, k.hook jd2000, r, []⟩

/-- `get_solar_system_ephems(name)`: a new object or a copy (ephems.py 797-802); attributes are never modified in place, so the copy shares nothing. -/
def getObj (k : Kind Cal H C K) (t : Table H) (n : String) : Except Err (Obj H) :=
  match t n with
  | none => .error .key
  | some (.cls r) => .ok (newObj k r)
  | some (.obj o) => .ok o

/-- `get_solar_system_ephems(name,jds,coordsys)`: the object of the table itself is called (ephems.py 803-807). -/
noncomputable def getCoords (k : Kind Cal H C K) (t : Table H) (n : String) (d : Dates Cal) (s : Option K) : Except Err (Out C) × Table H :=
  match t n with
  | none => (.error .key, t)
  | some (.cls r) => (((newObj k r).call k d s).1, t)
  | some (.obj o) => ((o.call k d s).1, fun m => if m = n then some (.obj (o.call k d s).2) else t m)

/-- What a user of the module can do with the table: get coordinates, or get an object and use it. -/
inductive TOp (Cal K : Type) where
  | coords (n : String) (d : Dates Cal) (s : Option K)
  | take (n : String) (ops : List (Op Cal K))

noncomputable def tstep (k : Kind Cal H C K) (t : Table H) : TOp Cal K → Table H
  | .coords n d s => (getCoords k t n d s).2
  | .take _ _ => t

/-- Date, stored values and range of the entries. -/
def sameEntry : Option (Entry H) → Option (Entry H) → Prop
  | none, none => True
  | some (.cls r), some (.cls r') => r = r'
  | some (.obj o), some (.obj o') => o.jd = o'.jd ∧ o.hooked = o'.hooked ∧ o.range = o'.range
  | _, _ => False

theorem sameEntry_refl (e : Option (Entry H)) : sameEntry e e := by
  rcases e with _ | (_ | _) <;> simp [sameEntry]

def TConsistent (k : Kind Cal H C K) (t : Table H) : Prop := ∀ n o, t n = some (.obj o) → o.Consistent k

theorem tstep_same (k : Kind Cal H C K) (t : Table H) (ht : TConsistent k t) (op : TOp Cal K) :
    (∀ n, sameEntry (tstep k t op n) (t n)) ∧ TConsistent k (tstep k t op) := by
  cases op with
  | take n ops => exact ⟨fun n => sameEntry_refl _, ht⟩
  | coords n d s =>
    rcases h : t n with _ | (r | o)
    · have he : tstep k t (.coords n d s) = t := by simp [tstep, getCoords, h]
      rw [he]; exact ⟨fun n => sameEntry_refl _, ht⟩
    · have he : tstep k t (.coords n d s) = t := by simp [tstep, getCoords, h]
      rw [he]; exact ⟨fun n => sameEntry_refl _, ht⟩
    · obtain ⟨h1, h2, h3⟩ := call_restores k o (ht n o h) d s
      have he : tstep k t (.coords n d s) = fun m => if m = n then some (.obj (o.call k d s).2) else t m := by simp [tstep, getCoords, h]
      rw [he]
      constructor
      · intro m
        simp only
        by_cases hm : m = n
        · subst hm; rw [if_pos rfl, h]; exact ⟨h1, h2, h3⟩
        · rw [if_neg hm]; exact sameEntry_refl _
      · intro m o' ho'
        simp only at ho'
        by_cases hm : m = n
        · rw [if_pos hm] at ho'
          cases ho'
          unfold Obj.Consistent; rw [h1, h2]; exact ht n o h
        · rw [if_neg hm] at ho'; exact ht m o' ho'

theorem sameEntry_trans (a b c : Option (Entry H)) (h1 : sameEntry a b) (h2 : sameEntry b c) : sameEntry a c := by
  rcases a with _ | (_ | _) <;> rcases b with _ | (_ | _) <;> rcases c with _ | (_ | _) <;> simp_all [sameEntry]

/-- Getting coordinates of solar system objects, any number of times and in any order, and using objects obtained from the table, never changes
what the table gives: neither the date nor anything derived from it. -/
theorem table_undisturbed (k : Kind Cal H C K) (t : Table H) (ht : TConsistent k t) (ops : List (TOp Cal K)) (n : String) :
    sameEntry (ops.foldl (tstep k) t n) (t n) := by
  induction ops generalizing t with
  | nil => exact sameEntry_refl _
  | cons op ops ih =>
    obtain ⟨h1, h2⟩ := tstep_same k t ht op
    exact sameEntry_trans _ _ _ (ih _ h2) (h1 n)

/-- The coordinates of a named object at a list of dates are the same at any point of any history, and an unknown name is a KeyError. -/
theorem table_coords (k : Kind Cal H C K) (t : Table H) (n : String) (vs : List (Val Cal)) (cs : List C) (h : vs.mapM (coordsAt k) = .ok cs) :
    (t n = none → (getCoords k t n (.many vs) none).1 = .error .key ∧ getObj k t n = .error .key) ∧
    (t n ≠ none → (getCoords k t n (.many vs) none).1 = .ok (.list cs)) := by
  constructor
  · intro hn; simp [getCoords, getObj, hn]
  · intro hn
    rcases ht : t n with _ | (r | o)
    · exact absurd ht hn
    · simp only [getCoords, ht]; exact (call_many k _ vs cs h).1
    · simp only [getCoords, ht]; exact (call_many k _ vs cs h).1

/-! ### A concrete case -/

/-- Years from 2000, failing before year -50. -/
noncomputable def sample : Kind Unit ℝ ℝ Bool where
  clock := 2460000
  calToJd _ := .error .value
  hook jd := (jd - jd2000) / 365.25
  coord jd h := if h < -50 then .error (.coord 1) else .ok (jd + h)
  convert b c := if b then .ok (-c) else .error .value

example : ∃ o, create sample (some (some (.num 2400000), none)) = .ok o ∧ o.Consistent sample ∧ ¬ Outside o.range o.jd ∧ Outside o.range 0 := by
  refine ⟨⟨jd2000, sample.hook jd2000, (some 2400000, none), []⟩, rfl, rfl, ?_, ?_⟩
  · simp [Outside, jd2000]; norm_num
  · simp [Outside]

/-- A date that fails in the middle of a list: error, and the object is as before. -/
example (o : Obj ℝ) (ho : o.Consistent sample) : (o.call sample (.many [.num 2451545, .cal (), .num 2451546]) none).1 = .error .value ∧
    (o.call sample (.many [.num 2451545, .cal (), .num 2451546]) none).2.jd = o.jd :=
  ⟨call_error sample o [.num 2451545] [.num 2451546] (.cal ()) [2451545 + (2451545 - jd2000) / 365.25] .value none
      (by
        have : coordsAt sample (.num 2451545) = .ok (2451545 + (2451545 - jd2000) / 365.25) := by
          simp [coordsAt, toJd, sample, jd2000]
        rw [List.mapM_cons, this]; rfl) rfl,
    (call_restores sample o ho _ none).1⟩

end Verif.EphemObj

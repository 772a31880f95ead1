import Mathlib.Data.List.Basic
import Mathlib.Tactic.Linarith
import Mathlib.Tactic.Ring

/-!
# Tipsy snapshots (astropysics/utils/io.py 925-1023)

`load_tipsy_format` after the header line and the number array have been read (the conversion of
text to numbers by `int`, `float` and `np.loadtxt` is not modelled; one number per line).
-/

namespace Verif.Tipsy

variable {α : Type}

/-- A Python slice bound: negative counts from the end, clipped to the sequence. -/
def bound (n : Nat) (i : Int) : Nat :=
  if i < 0 then (i + n).toNat else min i.toNat n

/-- `a[i:j]`. -/
def slice (a : List α) (i j : Int) : List α := (a.take (bound a.length j)).drop (bound a.length i)

/-- `a[i:]`. -/
def sliceFrom (a : List α) (i : Int) : List α := a.drop (bound a.length i)

/-- `a[:j]`. -/
def sliceTo (a : List α) (j : Int) : List α := a.take (bound a.length j)

/-- A quantity and its three per-kind views (`dout['mass']`, `dout['mass_gas']`, ...). -/
structure Split (β : Type) where
  all : β
  gas : β
  dark : β
  star : β
deriving DecidableEq, Repr

/-- io.py 950-952, 1014-1016: the views of a flat quantity. -/
def splitKinds (a : List α) (ngas ndark : Int) : Split (List α) :=
  ⟨a, sliceTo a ngas, slice a ngas ndark, sliceFrom a (ngas + ndark)⟩

/-- io.py 961-963, 970-972: the views of a `dims × ntotal` quantity. -/
def splitKinds2 (a : List (List α)) (ngas ndark : Int) : Split (List (List α)) :=
  ⟨a, a.map (sliceTo · ngas), a.map (slice · ngas ndark), a.map (sliceFrom · (ngas + ndark))⟩

/-- The dictionary that is returned; the keys that are set only for a kind that is present are
options. -/
structure Out (α : Type) where
  ndark : Int
  mass : Split (List α)
  pos : Split (List (List α))
  vel : Split (List (List α))
  softeningDark : Option (List α)
  softeningStar : Option (List α)
  density : Option (List α)
  temperature : Option (List α)
  sphSmoothing : Option (List α)
  metalsGas : Option (List α)
  metalsStar : Option (List α)
  formationTime : Option (List α)
  potential : Split (List α)
  /-- a warning about the number of entries was issued (1018-1020) -/
  warned : Bool
deriving DecidableEq, Repr

/-- io.py 955-958 and 966-969: `for d in range(dims): i = j; j += ntotal; pos.append(A[i:j])`.
Returns the rows and the new `j`. -/
def rows (A : List α) (ntotal : Int) : Nat → Int → List (List α) × Int
  | 0, j => ([], j)
  | d + 1, j =>
    let r := rows A ntotal d (j + ntotal)
    (slice A j (j + ntotal) :: r.1, r.2)

/-- An optional block: `if n>0: i = j; j += n; dout[key] = A[i:j]`. -/
def block (A : List α) (n j : Int) : Option (List α) × Int :=
  if n > 0 then (some (slice A j (j + n)), j + n) else (none, j)

/-- `np.array(rows)[:, ...]` needs at least one row and rows of one length. -/
def rectangular (a : List (List α)) : Bool :=
  match a with
  | [] => false
  | r :: rs => rs.all (fun x => x.length == r.length)

/-- io.py 931-1023.  `none` is the IndexError of the two-dimensional views when there are no
dimensions or the file is too short for rows of one length. -/
def load (ntotal ngas nstar dims : Int) (A : List α) : Option (Out α) :=
  let ndark := ntotal - nstar - ngas
  let j := ntotal
  let mass := splitKinds (slice A 0 j) ngas ndark
  let p := rows A ntotal dims.toNat j
  if !rectangular p.1 then none else
  let v := rows A ntotal dims.toNat p.2
  if !rectangular v.1 then none else
  let sd := block A ndark v.2
  let ss := block A nstar sd.2
  let de := block A ngas ss.2
  let te := block A ngas de.2
  let sm := block A ngas te.2
  let mg := block A ngas sm.2
  let ms := block A nstar mg.2
  let ft := block A nstar ms.2
  let j := ft.2
  some {
    ndark := ndark, mass := mass
    pos := splitKinds2 p.1 ngas ndark, vel := splitKinds2 v.1 ngas ndark
    softeningDark := sd.1, softeningStar := ss.1, density := de.1, temperature := te.1
    sphSmoothing := sm.1, metalsGas := mg.1, metalsStar := ms.1, formationTime := ft.1
    potential := splitKinds (slice A j (j + ntotal)) ngas ndark
    warned := decide (j + ntotal ≠ A.length) }

/-! ## Specification: what a Tipsy ASCII file contains -/

/-- A particle; the columns that do not apply to its kind are ignored. -/
structure Particle (α : Type) where
  mass : α
  pos : Nat → α
  vel : Nat → α
  softening : α
  density : α
  temperature : α
  smoothing : α
  metals : α
  formationTime : α
  potential : α

/-- A snapshot of gas, dark and star particles in `dims` dimensions. -/
structure Snapshot (α : Type) where
  dims : Nat
  gas : List (Particle α)
  dark : List (Particle α)
  star : List (Particle α)

namespace Snapshot

/-- All particles in file order. -/
def particles (s : Snapshot α) : List (Particle α) := s.gas ++ s.dark ++ s.star

/-- One row per dimension. -/
def table (d : Nat) (ps : List (Particle α)) (f : Particle α → Nat → α) : List (List α) :=
  (List.range d).map (fun k => ps.map (f · k))

/-- The numbers of the file after the three header lines, in the order of the Tipsy ASCII format. -/
def numbers (s : Snapshot α) : List α :=
  s.particles.map (·.mass) ++
  (table s.dims s.particles (·.pos)).flatten ++
  (table s.dims s.particles (·.vel)).flatten ++
  s.dark.map (·.softening) ++ s.star.map (·.softening) ++
  s.gas.map (·.density) ++ s.gas.map (·.temperature) ++ s.gas.map (·.smoothing) ++
  s.gas.map (·.metals) ++ s.star.map (·.metals) ++ s.star.map (·.formationTime) ++
  s.particles.map (·.potential)

end Snapshot

open Snapshot

/-- Reading the file of a snapshot. -/
def loadSnapshot (s : Snapshot α) : Option (Out α) :=
  load (s.particles.length : Int) s.gas.length s.star.length s.dims s.numbers

/-! ## Lemmas -/

theorem slice_nat (a : List α) (i j : Nat) : slice a (i : Int) (j : Int) = (a.take j).drop i := by
  unfold slice bound
  rw [if_neg (by omega), if_neg (by omega)]
  simp only [Int.toNat_natCast]
  apply List.ext_getElem?
  intro k
  simp only [List.getElem?_drop, List.getElem?_take]
  by_cases h1 : i ≤ a.length
  · rw [min_eq_left h1]
    by_cases h2 : j ≤ a.length
    · rw [min_eq_left h2]
    · rw [min_eq_right (by omega)]
      split_ifs <;> first | rfl | (exfalso; omega) | skip
      · symm; rw [List.getElem?_eq_none]; omega
  · rw [min_eq_right (by omega)]
    have : a[a.length + k]? = none := List.getElem?_eq_none (by omega)
    have h2 : a[i + k]? = none := List.getElem?_eq_none (by omega)
    rw [this, h2]
    simp

theorem slice_mid (p q r : List α) (i j : Int) (hi : i = p.length) (hj : j = p.length + q.length) :
    slice (p ++ q ++ r) i j = q := by
  subst hi
  have : j = ((p.length + q.length : Nat) : Int) := by rw [hj]; push_cast; rfl
  rw [this, slice_nat]
  rw [List.take_append_of_le_length (by simp), List.take_of_length_le (by simp),
    List.drop_left]

theorem sliceTo_nat (a : List α) (j : Nat) : sliceTo a (j : Int) = a.take j := by
  unfold sliceTo bound
  rw [if_neg (by omega)]
  simp only [Int.toNat_natCast]
  rcases le_total j a.length with h | h
  · rw [min_eq_left h]
  · rw [min_eq_right h, List.take_of_length_le h, List.take_length]

theorem sliceFrom_nat (a : List α) (j : Nat) : sliceFrom a (j : Int) = a.drop j := by
  unfold sliceFrom bound
  rw [if_neg (by omega)]
  simp only [Int.toNat_natCast]
  rcases le_total j a.length with h | h
  · rw [min_eq_left h]
  · rw [min_eq_right h, List.drop_eq_nil_of_le h, List.drop_length]

theorem splitKinds_app (g d s : List α) :
    splitKinds (g ++ d ++ s) (g.length : Int) (d.length : Int) =
      ⟨g ++ d ++ s, g, d.take (d.length - g.length), s⟩ := by
  unfold splitKinds
  rw [sliceTo_nat, slice_nat, ← Int.natCast_add, sliceFrom_nat]
  congr 1
  · rw [List.append_assoc, List.take_left]
  · rw [List.append_assoc, List.take_append, List.drop_append, List.drop_take]
    have h2 : List.drop g.length g = [] := List.drop_length
    rw [h2]
    have h1 : (d ++ s).take (d.length - g.length) = d.take (d.length - g.length) :=
      List.take_append_of_le_length (by omega)
    rw [h1]
    simp only [List.take_nil, List.nil_append, List.length_take]
    by_cases h : g.length ≤ d.length
    · rw [min_eq_right h, Nat.sub_self, List.drop_zero]
    · rw [show d.length - g.length = 0 by omega]; simp
  · rw [← List.length_append, List.drop_left]

theorem rows_app (ps : List (Particle α)) (f : Particle α → Nat → α) (d0 d : Nat) :
    ∀ (p r : List α) (j : Int), j = p.length →
    rows (p ++ ((List.range' d0 d).map (fun k => ps.map (f · k))).flatten ++ r)
      (ps.length : Int) d j =
      ((List.range' d0 d).map (fun k => ps.map (f · k)),
        ((p ++ ((List.range' d0 d).map (fun k => ps.map (f · k))).flatten).length : Int)) := by
  induction d generalizing d0 with
  | zero => intro p r j hj; simp [rows, hj]
  | succ d ih =>
    intro p r j hj
    rw [List.range'_succ]
    simp only [List.map_cons, List.flatten_cons, rows]
    have e : p ++ (List.map (fun x => f x d0) ps ++
        (List.map (fun k => List.map (fun x => f x k) ps) (List.range' (d0 + 1) d)).flatten) ++ r
      = (p ++ List.map (fun x => f x d0) ps) ++
        (List.map (fun k => List.map (fun x => f x k) ps) (List.range' (d0 + 1) d)).flatten ++ r := by
      simp [List.append_assoc]
    rw [e]
    rw [ih (d0 + 1) (p ++ List.map (fun x => f x d0) ps) r (j + ps.length) (by
      simp [hj])]
    rw [Prod.mk.injEq]
    constructor
    · congr 1
      rw [List.append_assoc (p ++ _)]
      exact slice_mid p _ _ _ _ hj (by simp [hj])
    · simp [List.append_assoc]

theorem rows_table (ps : List (Particle α)) (f : Particle α → Nat → α) (d : Nat)
    (p r A : List α) (j : Int) (hA : A = p ++ (table d ps f).flatten ++ r) (hj : j = p.length) :
    rows A (ps.length : Int) d j = (table d ps f, ((p ++ (table d ps f).flatten).length : Int)) := by
  subst hA
  unfold table
  rw [List.range_eq_range']
  exact rows_app ps f 0 d p r j hj

theorem block_app (p q r A : List α) (n j : Int) (hA : A = p ++ q ++ r) (hj : j = p.length)
    (hn : n = q.length) :
    block A n j = (if q.length > 0 then some q else none, ((p ++ q).length : Int)) := by
  unfold block
  subst hA
  by_cases h : q.length > 0
  · rw [if_pos (by omega), if_pos h, slice_mid p q r j (j + n) hj (by omega)]
    simp [hj, hn]
  · rw [if_neg (by omega), if_neg h]
    have : q = [] := List.length_eq_zero_iff.mp (by omega)
    simp [hj, this]

theorem rectangular_table (ps : List (Particle α)) (f : Particle α → Nat → α) (d : Nat)
    (hd : 0 < d) : rectangular (table d ps f) = true := by
  obtain ⟨d, rfl⟩ : ∃ e, d = e + 1 := ⟨d - 1, by omega⟩
  unfold table
  rw [List.range_succ_eq_map]
  simp [rectangular]

/-! ## Properties -/

/-- An optional block is present exactly when its kind is. -/
def present (l : List α) : Option (List α) := if l.length > 0 then some l else none

/-- C36, everything that is read right: all per-particle quantities as a whole, the gas and star
views of each of them, the blocks that exist for one kind only, and no warning.  (The dark views are
`dark_views` below.) -/
theorem load_correct (s : Snapshot α) (hd : 0 < s.dims) :
    ∃ o, loadSnapshot s = some o ∧
      o.ndark = s.dark.length ∧ o.warned = false ∧
      o.mass.all = s.particles.map (·.mass) ∧
      o.mass.gas = s.gas.map (·.mass) ∧ o.mass.star = s.star.map (·.mass) ∧
      o.pos.all = table s.dims s.particles (·.pos) ∧
      o.pos.gas = table s.dims s.gas (·.pos) ∧ o.pos.star = table s.dims s.star (·.pos) ∧
      o.vel.all = table s.dims s.particles (·.vel) ∧
      o.vel.gas = table s.dims s.gas (·.vel) ∧ o.vel.star = table s.dims s.star (·.vel) ∧
      o.softeningDark = present (s.dark.map (·.softening)) ∧
      o.softeningStar = present (s.star.map (·.softening)) ∧
      o.density = present (s.gas.map (·.density)) ∧
      o.temperature = present (s.gas.map (·.temperature)) ∧
      o.sphSmoothing = present (s.gas.map (·.smoothing)) ∧
      o.metalsGas = present (s.gas.map (·.metals)) ∧
      o.metalsStar = present (s.star.map (·.metals)) ∧
      o.formationTime = present (s.star.map (·.formationTime)) ∧
      o.potential.all = s.particles.map (·.potential) ∧
      o.potential.gas = s.gas.map (·.potential) ∧ o.potential.star = s.star.map (·.potential) ∧
      -- the dark views lose particles at the end
      o.mass.dark = (s.dark.take (s.dark.length - s.gas.length)).map (·.mass) ∧
      o.pos.dark = table s.dims (s.dark.take (s.dark.length - s.gas.length)) (·.pos) ∧
      o.vel.dark = table s.dims (s.dark.take (s.dark.length - s.gas.length)) (·.vel) ∧
      o.potential.dark = (s.dark.take (s.dark.length - s.gas.length)).map (·.potential) := by
  obtain ⟨D, gas, dark, star⟩ := s
  simp only at hd
  generalize hs : (⟨D, gas, dark, star⟩ : Snapshot α) = s
  have eD : s.dims = D := by rw [← hs]
  have eg : s.gas = gas := by rw [← hs]
  have ed : s.dark = dark := by rw [← hs]
  have es : s.star = star := by rw [← hs]
  have hps : s.particles = gas ++ dark ++ star := by rw [← hs]; rfl
  have hlen : s.particles.length = gas.length + dark.length + star.length := by
    rw [hps]; simp; omega
  have hnd : (s.particles.length : Int) - star.length - gas.length = (dark.length : Int) := by
    rw [hlen]; push_cast; omega
  have sp1 : ∀ f : Particle α → α, splitKinds (s.particles.map f) (gas.length : Int) (dark.length : Int)
      = ⟨s.particles.map f, gas.map f, (dark.take (dark.length - gas.length)).map f, star.map f⟩ := by
    intro f
    have := splitKinds_app (gas.map f) (dark.map f) (star.map f)
    simp only [List.length_map] at this
    rw [hps]
    simp only [List.map_append]
    rw [this, List.map_take]
  have sp2 : ∀ f : Particle α → Nat → α, splitKinds2 (table D s.particles f) (gas.length : Int)
      (dark.length : Int) = ⟨table D s.particles f, table D gas f,
        table D (dark.take (dark.length - gas.length)) f, table D star f⟩ := by
    intro f
    unfold splitKinds2 table
    simp only [List.map_map]
    congr 1 <;> (apply List.map_congr_left; intro k _; simp only [Function.comp])
    · exact congrArg Split.gas (sp1 (f · k))
    · exact congrArg Split.dark (sp1 (f · k))
    · exact congrArg Split.star (sp1 (f · k))
  have hN : s.numbers = s.particles.map (·.mass) ++ (table D s.particles (·.pos)).flatten ++
      (table D s.particles (·.vel)).flatten ++
      dark.map (·.softening) ++ star.map (·.softening) ++
      gas.map (·.density) ++ gas.map (·.temperature) ++ gas.map (·.smoothing) ++
      gas.map (·.metals) ++ star.map (·.metals) ++ star.map (·.formationTime) ++
      s.particles.map (·.potential) := by rw [← hs]; rfl
  unfold loadSnapshot load
  rw [eD, eg, ed, es]
  simp only [Int.toNat_natCast, hnd]
  generalize s.numbers = A at *
  have hm : slice A 0 (s.particles.length : Int) = s.particles.map (·.mass) := by
    rw [hN]; simp only [List.append_assoc]
    exact slice_mid [] (s.particles.map (·.mass)) _ 0 (s.particles.length : Int) rfl (by simp)
  rw [hm, sp1]
  have hp := rows_table s.particles (·.pos) D (s.particles.map (·.mass)) _ A
    (s.particles.length : Int) (by rw [hN]; simp only [List.append_assoc]; rfl) (by simp)
  rw [hp]
  simp only [rectangular_table _ _ _ hd, Bool.not_true, Bool.false_eq_true, if_false]
  have hv := rows_table s.particles (·.vel) D (s.particles.map (·.mass) ++
    (table D s.particles (·.pos)).flatten) _ A _ (by rw [hN]; simp only [List.append_assoc]; rfl) rfl
  rw [hv]
  simp only [rectangular_table _ _ _ hd, Bool.not_true, Bool.false_eq_true, if_false]
  rw [sp2, sp2]
  have h0 := block_app (s.particles.map (·.mass) ++ (table D s.particles (·.pos)).flatten ++ (table D s.particles (·.vel)).flatten) (dark.map (·.softening)) _ A (dark.length : Int) _
    (by rw [hN]; simp only [List.append_assoc]; rfl) rfl (by simp)
  rw [h0]
  have h1 := block_app (s.particles.map (·.mass) ++ (table D s.particles (·.pos)).flatten ++ (table D s.particles (·.vel)).flatten ++ dark.map (·.softening)) (star.map (·.softening)) _ A (star.length : Int) _
    (by rw [hN]; simp only [List.append_assoc]; rfl) rfl (by simp)
  rw [h1]
  have h2 := block_app (s.particles.map (·.mass) ++ (table D s.particles (·.pos)).flatten ++ (table D s.particles (·.vel)).flatten ++ dark.map (·.softening) ++ star.map (·.softening)) (gas.map (·.density)) _ A (gas.length : Int) _
    (by rw [hN]; simp only [List.append_assoc]; rfl) rfl (by simp)
  rw [h2]
  have h3 := block_app (s.particles.map (·.mass) ++ (table D s.particles (·.pos)).flatten ++ (table D s.particles (·.vel)).flatten ++ dark.map (·.softening) ++ star.map (·.softening) ++ gas.map (·.density)) (gas.map (·.temperature)) _ A (gas.length : Int) _
    (by rw [hN]; simp only [List.append_assoc]; rfl) rfl (by simp)
  rw [h3]
  have h4 := block_app (s.particles.map (·.mass) ++ (table D s.particles (·.pos)).flatten ++ (table D s.particles (·.vel)).flatten ++ dark.map (·.softening) ++ star.map (·.softening) ++ gas.map (·.density) ++ gas.map (·.temperature)) (gas.map (·.smoothing)) _ A (gas.length : Int) _
    (by rw [hN]; simp only [List.append_assoc]; rfl) rfl (by simp)
  rw [h4]
  have h5 := block_app (s.particles.map (·.mass) ++ (table D s.particles (·.pos)).flatten ++ (table D s.particles (·.vel)).flatten ++ dark.map (·.softening) ++ star.map (·.softening) ++ gas.map (·.density) ++ gas.map (·.temperature) ++ gas.map (·.smoothing)) (gas.map (·.metals)) _ A (gas.length : Int) _
    (by rw [hN]; simp only [List.append_assoc]; rfl) rfl (by simp)
  rw [h5]
  have h6 := block_app (s.particles.map (·.mass) ++ (table D s.particles (·.pos)).flatten ++ (table D s.particles (·.vel)).flatten ++ dark.map (·.softening) ++ star.map (·.softening) ++ gas.map (·.density) ++ gas.map (·.temperature) ++ gas.map (·.smoothing) ++ gas.map (·.metals)) (star.map (·.metals)) _ A (star.length : Int) _
    (by rw [hN]; simp only [List.append_assoc]; rfl) rfl (by simp)
  rw [h6]
  have h7 := block_app (s.particles.map (·.mass) ++ (table D s.particles (·.pos)).flatten ++ (table D s.particles (·.vel)).flatten ++ dark.map (·.softening) ++ star.map (·.softening) ++ gas.map (·.density) ++ gas.map (·.temperature) ++ gas.map (·.smoothing) ++ gas.map (·.metals) ++ star.map (·.metals)) (star.map (·.formationTime)) (s.particles.map (·.potential)) A (star.length : Int) _
    hN rfl (by simp)
  rw [h7]
  have hq : ∀ i : Int, i = ((s.particles.map (·.mass) ++ (table D s.particles (·.pos)).flatten ++ (table D s.particles (·.vel)).flatten ++ dark.map (·.softening) ++ star.map (·.softening) ++ gas.map (·.density) ++ gas.map (·.temperature) ++ gas.map (·.smoothing) ++ gas.map (·.metals) ++ star.map (·.metals) ++ star.map (·.formationTime)).length : Int) →
      slice A i (i + s.particles.length) = s.particles.map (·.potential) := by
    intro i hi
    have := slice_mid _ (s.particles.map (·.potential)) [] i (i + s.particles.length) hi
      (by rw [hi, List.length_map])
    rw [hN]
    rw [List.append_nil] at this
    exact this
  rw [hq _ rfl, sp1]
  refine ⟨_, rfl, rfl, ?_, rfl, rfl, rfl, rfl, rfl, rfl, rfl, rfl, rfl, rfl, rfl, rfl, rfl, rfl, rfl,
    rfl, rfl, rfl, rfl, rfl, rfl, rfl, rfl, rfl⟩
  simp only [decide_eq_false_iff_not, not_not]
  rw [hN]
  simp only [List.length_append, List.length_map, Nat.cast_add]

/-- C36 for the dark particles: right exactly when there is no gas or there are no dark particles. -/
theorem dark_right_iff (s : Snapshot α) (hd : 0 < s.dims) :
    (∃ o, loadSnapshot s = some o ∧ o.mass.dark.length = s.dark.length) ↔
      s.gas = [] ∨ s.dark = [] := by
  obtain ⟨o, ho, h⟩ := load_correct s hd
  have hm : o.mass.dark = (s.dark.take (s.dark.length - s.gas.length)).map (·.mass) := by tauto
  have e : (∃ o, loadSnapshot s = some o ∧ o.mass.dark.length = s.dark.length) ↔
      o.mass.dark.length = s.dark.length := by
    rw [ho]
    constructor
    · rintro ⟨o', h1, h2⟩
      simp only [Option.some.injEq] at h1
      rw [h1]; exact h2
    · intro h; exact ⟨o, rfl, h⟩
  rw [e, hm, List.length_map, List.length_take]
  rw [← List.length_eq_zero_iff, ← List.length_eq_zero_iff]
  omega

/-- ... and then all dark views are those of the dark particles. -/
theorem dark_views_on_domain (s : Snapshot α) (hd : 0 < s.dims) (h0 : s.gas = []) :
    ∃ o, loadSnapshot s = some o ∧
      o.mass.dark = s.dark.map (·.mass) ∧ o.pos.dark = table s.dims s.dark (·.pos) ∧
      o.vel.dark = table s.dims s.dark (·.vel) ∧
      o.potential.dark = s.dark.map (·.potential) := by
  obtain ⟨o, ho, h⟩ := load_correct s hd
  have ht : s.dark.take (s.dark.length - s.gas.length) = s.dark := by simp [h0]
  rw [ht] at h
  exact ⟨o, ho, by tauto, by tauto, by tauto, by tauto⟩

/-- What is lost: the last `min ngas ndark` dark particles appear in no view. -/
theorem dark_lost (s : Snapshot α) (hd : 0 < s.dims) :
    ∃ o, loadSnapshot s = some o ∧
      o.mass.gas.length + o.mass.dark.length + o.mass.star.length
        + min s.gas.length s.dark.length = o.mass.all.length := by
  obtain ⟨o, ho, h⟩ := load_correct s hd
  have h1 : o.mass.all = s.particles.map (·.mass) := by tauto
  have h2 : o.mass.gas = s.gas.map (·.mass) := by tauto
  have h3 : o.mass.star = s.star.map (·.mass) := by tauto
  have h4 : o.mass.dark = (s.dark.take (s.dark.length - s.gas.length)).map (·.mass) := by tauto
  refine ⟨o, ho, ?_⟩
  rw [h1, h2, h3, h4]
  simp [particles]
  omega

/-- A file with fewer or more numbers than the header announces is read with a warning only (if the
rows of positions and velocities are complete). -/
theorem warned_iff (ntotal ngas nstar dims : Nat) (h : ngas + nstar ≤ ntotal) (A : List α) (o)
    (ho : load ntotal ngas nstar dims A = some o) :
    o.warned = true ↔
      (A.length : Int) ≠ 2 * ntotal + 2 * dims * ntotal + (ntotal - nstar - ngas) + 3 * nstar
        + 4 * ngas := by
  have hr : ∀ (d : Nat) (j : Int), (rows A (ntotal : Int) d j).2 = j + d * ntotal := by
    intro d
    induction d with
    | zero => intro j; simp [rows]
    | succ d ih => intro j; simp only [rows]; rw [ih]; push_cast; ring
  have hb : ∀ (n : Nat) (j : Int), (block A (n : Int) j).2 = j + n := by
    intro n j; unfold block; split_ifs <;> simp; omega
  have hnd : (ntotal : Int) - nstar - ngas = ((ntotal - nstar - ngas : Nat) : Int) := by omega
  unfold load at ho
  simp only at ho
  split_ifs at ho
  simp only [Option.some.injEq] at ho
  subst ho
  simp only [hnd, hb, hr, Int.toNat_natCast, decide_eq_true_eq]
  constructor
  · intro h1 h2; apply h1; rw [h2]; ring
  · intro h1 h2; apply h1; rw [← h2]; ring

/-! ## Non-vacuity -/

/-- A test particle whose columns can be told apart. -/
def particle (n : Nat) : Particle Nat :=
  ⟨n, fun k => 100 + 10 * k + n, fun k => 200 + 10 * k + n, 300 + n, 400 + n, 500 + n, 600 + n,
    700 + n, 800 + n, 900 + n⟩

/-- One gas, two dark and one star particle in two dimensions: the second dark particle is lost. -/
example : (loadSnapshot ⟨2, [particle 1], [particle 2, particle 3], [particle 4]⟩).map
    (fun o => (o.mass, o.pos.star, o.formationTime, o.warned)) =
    some (⟨[1, 2, 3, 4], [1], [2], [4]⟩, [[104], [114]], some [804], false) := by decide

end Verif.Tipsy

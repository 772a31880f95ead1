import Mathlib.Data.List.Sort
import Mathlib.Data.List.Perm.Basic
import Mathlib.Data.Rat.Defs
import Mathlib.Algebra.Order.Field.Rat
import Mathlib.Algebra.Order.Field.Basic
import Mathlib.Algebra.Order.Group.Abs
import Mathlib.Tactic.Linarith
import Mathlib.Tactic.FieldSimp
import Mathlib.Tactic.NormNum

/-!
# The full spectrum of an SED (astropysics/objcat.py, `SEDField.getFullSED`, 3360-3386) (C234)

Exact arithmetic; the spectra already have the unit of the SED.
-/

namespace Verif.FullSed

inductive Err
  | value
  deriving DecidableEq

/-- A pixel: x, flux, error. -/
structure Px where
  x : ℚ
  f : ℚ
  e : ℚ
  deriving DecidableEq

/-- One band of an observation: centre and width (always in Ångström: `getBandInfo()` has no argument, objcat.py 3379), the values (flux and error) in
it, as many in each band of an observation. -/
structure Band where
  cen : ℚ
  wid : ℚ
  vals : List (ℚ × ℚ)
  deriving DecidableEq

/-- The three arrays (objcat.py 3369-3384): per band one `x` - the centre divided by the width - but all its fluxes and errors. -/
def xs (specs : List (List Px)) (phots : List (List Band)) : List ℚ := specs.flatten.map (·.x) ++ phots.flatten.map fun b => b.cen / b.wid
def fs (specs : List (List Px)) (phots : List (List Band)) : List ℚ := specs.flatten.map (·.f) ++ phots.flatten.flatMap fun b => b.vals.map Prod.fst
def es (specs : List (List Px)) (phots : List (List Band)) : List ℚ := specs.flatten.map (·.e) ++ phots.flatten.flatMap fun b => b.vals.map Prod.snd

/-- `Spectrum.__init__` (spec.py:315-352) of arrays: shapes must agree, errors lose their sign, and everything is ordered by `argsort`. -/
def mkSpectrum (argsort : List ℚ → List ℕ) (x f e : List ℚ) : Except Err (List Px) :=
  if x.length ≠ f.length ∨ e.length ≠ f.length then .error .value
  else
    let e := e.map fun v => if v < 0 then -1 * v else v
    .ok ((argsort x).map fun i => ⟨x.getD i 0, f.getD i 0, e.getD i 0⟩)

/-- `getFullSED`. -/
def fullSed (argsort : List ℚ → List ℕ) (specs : List (List Px)) (phots : List (List Band)) : Except Err (List Px) :=
  mkSpectrum argsort (xs specs phots) (fs specs phots) (es specs phots)

/-! ## Theorems -/

/-- What `numpy.argsort` does: some order of the positions in which the values increase (equal values in any order). -/
def Argsort (a : List ℚ → List ℕ) : Prop := ∀ x, (a x).Perm (List.range x.length) ∧ ((a x).map fun i => x.getD i 0).Pairwise (· ≤ ·)

/-- A pixel as a spectrum keeps it. -/
def keep (p : Px) : Px := ⟨p.x, p.f, |p.e|⟩

theorem zip3 : ∀ (l : List Px), (List.range l.length).map (fun i => (⟨(l.map (·.x)).getD i 0, (l.map (·.f)).getD i 0,
    ((l.map (·.e)).map fun v => if v < 0 then -1 * v else v).getD i 0⟩ : Px)) = l.map keep := by
  intro l
  apply List.ext_getElem
  · simp
  · intro i h1 h2
    have hi : i < l.length := by simpa using h1
    simp only [List.getElem_map, List.getElem_range, List.getD_eq_getElem?_getD, List.getElem?_map, List.getElem?_eq_getElem hi, Option.map_some, Option.getD_some,
      keep, Px.mk.injEq, true_and]
    split
    · next h => rw [abs_of_neg h, neg_one_mul]
    · next h => rw [abs_of_nonneg (not_lt.1 h)]

/-- A spectrum made of pixels has exactly these, in order of x. -/
theorem mk_pixels (a : List ℚ → List ℕ) (ha : Argsort a) (l : List Px) :
    ∃ r, mkSpectrum a (l.map (·.x)) (l.map (·.f)) (l.map (·.e)) = .ok r ∧ r.Perm (l.map keep) ∧ r.Pairwise (fun p q => p.x ≤ q.x) := by
  refine ⟨_, by unfold mkSpectrum; rw [if_neg (by simp)], ?_, ?_⟩
  · rw [← zip3]
    have := (ha (l.map (·.x))).1
    rw [List.length_map] at this
    exact this.map _
  · rw [List.pairwise_map]
    have := (ha (l.map (·.x))).2
    rw [List.pairwise_map] at this
    exact this

/-- The point an observation with one value in a band becomes. -/
def point (b : Band) : List Px := b.vals.map fun v => ⟨b.cen / b.wid, v.1, v.2⟩

theorem phot_arrays (l : List Band) (h : ∀ b ∈ l, b.vals.length = 1) : l.map (fun b => b.cen / b.wid) = (l.flatMap point).map (·.x) ∧
    l.flatMap (fun b => b.vals.map Prod.fst) = (l.flatMap point).map (·.f) ∧ l.flatMap (fun b => b.vals.map Prod.snd) = (l.flatMap point).map (·.e) := by
  induction l with
  | nil => exact ⟨rfl, rfl, rfl⟩
  | cons b l ih =>
    obtain ⟨h1, h2, h3⟩ := ih fun c hc => h c (List.mem_cons_of_mem _ hc)
    obtain ⟨v, hv⟩ := List.length_eq_one_iff.1 (h b List.mem_cons_self)
    simp only [List.map_cons, List.flatMap_cons, List.map_append, h1, h2, h3]
    simp [point, hv]

/-- **C234.** With one value per band, the full spectrum has exactly the pixels of the spectra, and one point for each band of each observation, all by
increasing x: the flux of the observation as it is, at the centre of the band divided by its width. -/
theorem full_exact (a : List ℚ → List ℕ) (ha : Argsort a) (specs : List (List Px)) (phots : List (List Band)) (h : ∀ p ∈ phots, ∀ b ∈ p, b.vals.length = 1) :
    ∃ r, fullSed a specs phots = .ok r ∧ r.Perm (specs.flatten.map keep ++ (phots.flatten.flatMap point).map keep) ∧ r.Pairwise (fun p q => p.x ≤ q.x) := by
  have hf : ∀ b ∈ phots.flatten, b.vals.length = 1 := by
    intro b hb
    obtain ⟨p, hp, hbp⟩ := List.mem_flatten.1 hb
    exact h p hp b hbp
  obtain ⟨e1, e2, e3⟩ := phot_arrays _ hf
  have := mk_pixels a ha (specs.flatten ++ phots.flatten.flatMap point)
  simp only [List.map_append] at this
  unfold fullSed xs fs es
  rw [e1, e2, e3]
  exact this

/-- **C234.** With a value in every band, it is a ValueError exactly if some band has several. -/
theorem several_values (a : List ℚ → List ℕ) (ha : Argsort a) (specs : List (List Px)) (phots : List (List Band)) (h : ∀ p ∈ phots, ∀ b ∈ p, b.vals ≠ []) :
    fullSed a specs phots = .error .value ↔ ∃ p ∈ phots, ∃ b ∈ p, 2 ≤ b.vals.length := by
  constructor
  · intro he
    by_contra hc
    have h1 : ∀ p ∈ phots, ∀ b ∈ p, b.vals.length = 1 := by
      intro p hp b hb
      have := List.length_pos_iff.2 (h p hp b hb)
      by_contra h2
      exact hc ⟨p, hp, b, hb, by omega⟩
    obtain ⟨r, hr, -⟩ := full_exact a ha specs phots h1
    rw [he] at hr; cases hr
  · rintro ⟨p, hp, b, hb, h2⟩
    have key : ∀ l : List Band, (∀ c ∈ l, c.vals ≠ []) → l.length ≤ (l.flatMap fun c => c.vals.map Prod.fst).length ∧
        ((∃ c ∈ l, 2 ≤ c.vals.length) → l.length < (l.flatMap fun c => c.vals.map Prod.fst).length) := by
      intro l
      induction l with
      | nil => intro _; exact ⟨by simp, by rintro ⟨c, hc, -⟩; cases hc⟩
      | cons c l ih =>
        intro hl
        obtain ⟨i1, i2⟩ := ih fun d hd => hl d (List.mem_cons_of_mem _ hd)
        have hc := List.length_pos_iff.2 (hl c List.mem_cons_self)
        simp only [List.flatMap_cons, List.length_append, List.length_cons, List.length_map]
        refine ⟨by omega, ?_⟩
        rintro ⟨d, hd, hd2⟩
        rcases List.mem_cons.1 hd with rfl | hd
        · omega
        · have := i2 ⟨d, hd, hd2⟩; omega
    have := (key phots.flatten (by
      intro c hc
      obtain ⟨q, hq, hcq⟩ := List.mem_flatten.1 hc
      exact h q hq c hcq)).2 ⟨b, List.mem_flatten.2 ⟨p, hp, hb⟩, h2⟩
    unfold fullSed mkSpectrum
    rw [if_pos]
    left
    simp only [xs, fs, List.length_append, List.length_map]
    omega

/-- **C234.** The x of a point is the centre of its band only for bands one Ångström wide (or centred at 0); it does not change if centre and width are
scaled alike, as they are from one unit of length to another, and a band narrower than its centre is put left of every pixel beyond `cen / wid`. -/
theorem point_place (b : Band) (hw : 0 < b.wid) (hc : 0 < b.cen) :
    (b.cen / b.wid = b.cen ↔ b.wid = 1) ∧ (∀ k : ℚ, 0 < k → k * b.cen / (k * b.wid) = b.cen / b.wid) ∧ (1 < b.wid → b.cen / b.wid < b.cen) := by
  refine ⟨?_, fun k hk => mul_div_mul_left _ _ hk.ne', fun h => div_lt_self hc h⟩
  rw [div_eq_iff hw.ne']
  constructor
  · intro h
    exact mul_left_cancel₀ hc.ne' (by rw [mul_one]; exact h.symm)
  · intro h; rw [h, mul_one]

/-- **C234.** Without observations the full spectrum of a single ordered spectrum is that spectrum (with errors made positive); several are merged. -/
theorem single_spectrum (a : List ℚ → List ℕ) (ha : Argsort a) (s : List Px) (hs : s.Pairwise (fun p q => p.x < q.x)) : fullSed a [s] [] = .ok (s.map keep) := by
  obtain ⟨r, hr, hp, hsr⟩ := full_exact a ha [s] [] (by simp)
  rw [hr]
  congr 1
  simp only [List.flatten_cons, List.flatten_nil, List.append_nil, List.flatMap_nil, List.map_nil] at hp
  have hs' : (s.map keep).Pairwise (fun p q => p.x < q.x) := by rw [List.pairwise_map]; exact hs
  refine List.Perm.eq_of_pairwise ?_ hsr (hs'.imp fun h => h.le) hp
  intro p q hp1 hq1 h1 h2
  have hp2 := hp.mem_iff.1 hp1
  by_contra hne
  have htri : ∀ p ∈ s.map keep, ∀ q ∈ s.map keep, p ≠ q → p.x ≠ q.x := by
    intro p hp q hq hpq
    obtain ⟨i, hi⟩ := List.getElem?_of_mem hp
    obtain ⟨j, hj⟩ := List.getElem?_of_mem hq
    obtain ⟨hi1, rfl⟩ := List.getElem?_eq_some_iff.1 hi
    obtain ⟨hj1, rfl⟩ := List.getElem?_eq_some_iff.1 hj
    have hij : i ≠ j := by rintro rfl; exact hpq rfl
    rcases Nat.lt_or_gt_of_ne hij with h | h
    · exact (List.pairwise_iff_getElem.1 hs' i j hi1 hj1 h).ne
    · exact (List.pairwise_iff_getElem.1 hs' j i hj1 hi1 h).ne'
  exact htri p hp2 q hq1 hne (le_antisymm h1 h2)

/-! ## Concrete cases -/

/-- An order exists. -/
def demoSort (x : List ℚ) : List ℕ := (List.range x.length).insertionSort fun i j => x.getD i 0 ≤ x.getD j 0

theorem demo_argsort : Argsort demoSort := by
  intro x
  have tot : Std.Total fun i j : ℕ => x.getD i 0 ≤ x.getD j 0 := ⟨fun a b => le_total _ _⟩
  have tr : IsTrans ℕ fun i j : ℕ => x.getD i 0 ≤ x.getD j 0 := ⟨fun a b c h1 h2 => le_trans h1 h2⟩
  refine ⟨List.perm_insertionSort _ _, ?_⟩
  rw [List.pairwise_map]
  exact List.pairwise_insertionSort _ _

example : (match fullSed demoSort [[⟨4000, 1, -1⟩, ⟨3000, 2, 1⟩]] [[⟨5500, 1000, [(7, 1)]⟩]] with
    | .ok r => decide (r = [⟨11/2, 7, 1⟩, ⟨3000, 2, 1⟩, ⟨4000, 1, 1⟩])
    | .error _ => false) = true := by decide +kernel

example : fullSed demoSort [] [[⟨5500, 1000, [(7, 1), (8, 1)]⟩]] = .error .value :=
  (several_values _ demo_argsort _ _ (by simp)).2 ⟨_, List.mem_cons_self, _, List.mem_cons_self, by decide⟩

end Verif.FullSed

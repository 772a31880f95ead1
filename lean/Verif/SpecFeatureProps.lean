import Verif.SpecFeature
import Mathlib.Algebra.BigOperators.Intervals
import Mathlib.Tactic.Abel

/-! # Spectral features: theorems (C148, C152) -/

namespace Verif.SpecFeature

open Classical
open Verif.SpecAxis (convValid getD_get)

/-! ## Specification -/

/-- A spectrum as it is made: increasing axis, as many fluxes as pixels, and an array continuum of the same length. -/
structure WF (s : Sp) (c : FCont) : Prop where
  inc : s.x.Pairwise (· < ·)
  flux : s.flux.length = s.x.length
  cont : ∀ v, (c = .own (.arr v) ∨ c = .fromspec ∧ s.cont = .arr v) → v.length = s.x.length

/-- The value of the `k`th pixel. -/
def at' (l : List ℝ) (k : Nat) : ℝ := l.getD k 0

/-- The pixels from `a` up to but not including `b` are those in the half-open interval from `lo` to `hi`. -/
def Pixels (x : List ℝ) (lo hi : ℝ) (a b : Nat) : Prop :=
  a ≤ b ∧ b ≤ x.length ∧ ∀ k, k < x.length → (lo ≤ at' x k ∧ at' x k < hi ↔ a ≤ k ∧ k < b)

/-- The value of a continuum at a pixel. -/
def Cont.value (c : Cont) (x : List ℝ) (k : Nat) : ℝ :=
  match c with
  | .none => 0
  | .arr v => at' v k
  | .model f => f (at' x k)

/-- The value of the continuum of a feature at a pixel: its own, or that of the spectrum, or on the line that has the first given
value at the lower end and the second at the upper end. -/
noncomputable def contAt (s : Sp) (c : FCont) (lo hi : ℝ) (k : Nat) : ℝ :=
  match c with
  | .fromspec => s.cont.value s.x k
  | .own c => c.value s.x k
  | .pair a b => a + (b - a) / (hi - lo) * (at' s.x k - lo)

/-- The flux of the pixels `a … b - 1` above the continuum, each times half the distance between its neighbours. -/
noncomputable def excess (s : Sp) (c : FCont) (lo hi : ℝ) (a b : Nat) : ℝ :=
  ∑ k ∈ Finset.Ico a b, (at' s.flux k - contAt s c lo hi k) * ((at' s.x (k + 1) - at' s.x (k - 1)) / 2)

/-- The mean position of the pixels `a … b - 1`, weighted by their flux. -/
noncomputable def weighted (s : Sp) (a b : Nat) : Num :=
  fdiv (∑ k ∈ Finset.Ico a b, at' s.flux k * at' s.x k) (∑ k ∈ Finset.Ico a b, at' s.flux k)

/-- The mean of the continuum over the pixels `a … b - 1`. -/
noncomputable def meanCont (s : Sp) (c : FCont) (lo hi : ℝ) (a b : Nat) : ℝ :=
  (∑ k ∈ Finset.Ico a b, contAt s c lo hi k) / ((b : ℝ) - a)

/-! ## Lemmas -/

theorem sum_map_range (g : Nat → ℝ) (m : Nat) : ((List.range m).map g).sum = ∑ k ∈ Finset.range m, g k := by
  induction m with
  | zero => simp
  | succ m ih => rw [List.range_succ, List.map_append, List.sum_append, ih, Finset.sum_range_succ]; simp

theorem sum_shift (g : Nat → ℝ) (a b : Nat) : ((List.range (b - a)).map fun k => g (a + k)).sum = ∑ k ∈ Finset.Ico a b, g k := by
  rw [sum_map_range (fun k => g (a + k)), Finset.sum_Ico_eq_sum_range]

theorem searchSorted_le (x : List ℝ) (v : ℝ) : searchSorted x v ≤ x.length := List.countP_le_length

theorem lt_searchSorted : ∀ {x : List ℝ}, x.Pairwise (· < ·) → ∀ (v : ℝ) {k : Nat}, k < x.length → (k < searchSorted x v ↔ at' x k < v)
  | [], _, _, k, hk => by simp at hk
  | a :: l, h, v, k, hk => by
    have h' := List.pairwise_cons.1 h
    have ih := @lt_searchSorted l h'.2 v
    by_cases ha : a < v
    · have e : searchSorted (a :: l) v = searchSorted l v + 1 := by simp [searchSorted, List.countP_cons, ha]
      rw [e]
      cases k with
      | zero => simp [at', ha]
      | succ k =>
        have := ih (k := k) (by simpa using hk)
        simpa [at'] using this
    · have e : searchSorted (a :: l) v = 0 := by
        rw [searchSorted, List.countP_eq_zero]
        intro b hb
        rcases List.mem_cons.1 hb with rfl | hb
        · simpa using ha
        · have := h'.1 b hb
          simp; linarith
      rw [e]
      constructor
      · intro h; omega
      · intro h1
        exfalso
        cases k with
        | zero => exact ha (by simpa [at'] using h1)
        | succ k =>
          have hk' : k < l.length := by simpa using hk
          have : at' (a :: l) (k + 1) = l[k] := by simp [at', hk']
          rw [this] at h1
          exact ha ((h'.1 _ (List.getElem_mem hk')).trans h1)

theorem pixels_found {x : List ℝ} (hx : x.Pairwise (· < ·)) {lo hi : ℝ} (h : lo ≤ hi) :
    Pixels x lo hi (searchSorted x lo) (searchSorted x hi) := by
  refine ⟨?_, searchSorted_le x hi, ?_⟩
  · rcases Nat.lt_or_ge (searchSorted x hi) (searchSorted x lo) with h1 | h1
    · have hk : searchSorted x hi < x.length := lt_of_lt_of_le h1 (searchSorted_le x lo)
      have := (lt_searchSorted hx lo hk).1 h1
      have h2 := (lt_searchSorted hx hi hk).2 (by linarith)
      omega
    · exact h1
  · intro k hk
    have h1 := lt_searchSorted hx lo hk
    have h2 := lt_searchSorted hx hi hk
    constructor
    · rintro ⟨h3, h4⟩
      exact ⟨by by_contra hc; exact absurd (h1.1 (by omega)) (not_lt.2 h3), h2.2 h4⟩
    · rintro ⟨h3, h4⟩
      exact ⟨by by_contra hc; have := h1.2 (not_le.1 hc); omega, h2.1 h4⟩

theorem pixels_unique {x : List ℝ} {lo hi : ℝ} {a b a' b' : Nat} (h : Pixels x lo hi a b) (h' : Pixels x lo hi a' b') (hab : a < b) :
    a' = a ∧ b' = b := by
  obtain ⟨h1, h2, h3⟩ := h
  obtain ⟨h4, h5, h6⟩ := h'
  have key : ∀ k, k < x.length → ((a ≤ k ∧ k < b) ↔ (a' ≤ k ∧ k < b')) := fun k hk => (h3 k hk).symm.trans (h6 k hk)
  have ka := (key a (by omega)).1 ⟨le_refl _, hab⟩
  have kb := (key (b - 1) (by omega)).1 ⟨by omega, by omega⟩
  have ka' := (key a' (by omega)).2 ⟨le_refl _, by omega⟩
  have kb' := (key (b' - 1) (by omega)).2 ⟨by omega, by omega⟩
  omega

theorem slice_eq {l : List ℝ} {a b : Nat} (h : b ≤ l.length) : slice l a b = (List.range (b - a)).map fun k => at' l (a + k) := by
  apply List.ext_getElem
  · simp [slice]; omega
  · intro k h1 h2
    have : a + k < l.length := by simp at h2; omega
    simp [slice, at', this]

theorem conv3 {x : List ℝ} (h : 3 ≤ x.length) :
    convValid x [0.5, 0, -0.5] = .ok ((List.range (x.length - 2)).map fun k => (at' x (k + 2) - at' x k) / 2) := by
  have h1 : (x.isEmpty || [(0.5 : ℝ), 0, -0.5].isEmpty) = false := by
    cases x with
    | nil => simp at h
    | cons a l => rfl
  simp only [convValid, h1]
  rw [if_neg (by simp), if_neg (by simp; omega)]
  have h2 : x.length - 3 + 1 = x.length - 2 := by omega
  simp only [List.length_cons, List.length_nil, h2]
  congr 1
  apply List.map_congr_left
  intro k hk
  simp [List.range_succ, at']
  ring

theorem cont_list {s : Sp} {c : FCont} (hs : WF s c) {lo hi : ℝ} {a b : Nat} (hb : b ≤ s.x.length) :
    contValues (chooseCont s c) lo hi (slice s.x a b) a b = (List.range (b - a)).map fun k => contAt s c lo hi (a + k) := by
  have key : ∀ d : Cont, (∀ v, d = .arr v → v.length = s.x.length) →
      contValues (.own d) lo hi (slice s.x a b) a b = (List.range (b - a)).map fun k => d.value s.x (a + k) := by
    intro d hd
    cases d with
    | none => simp [contValues, slice_eq hb, Cont.value, Function.comp_def]
    | arr v => simp [contValues, slice_eq (l := v) (b := b) (by rw [hd v rfl]; exact hb), Cont.value]
    | model f => simp [contValues, slice_eq hb, Cont.value, Function.comp_def]
  cases c with
  | fromspec => exact key s.cont (fun v hv => hs.cont v (.inr ⟨rfl, hv⟩))
  | own d => exact key d (fun v hv => hs.cont v (.inl (by rw [hv])))
  | pair p q => simp [contValues, chooseCont, slice_eq hb, contAt, Function.comp_def]

theorem bop_range (f : ℝ → ℝ → ℝ) (g h : Nat → ℝ) (m : Nat) :
    bop f ((List.range m).map g) ((List.range m).map h) = .ok ((List.range m).map fun k => f (g k) (h k)) := by
  rw [bop, if_pos (by simp)]
  congr 1
  apply List.ext_getElem (by simp)
  intro k h1 h2
  simp

theorem bop_mismatch (f : ℝ → ℝ → ℝ) {a b : List ℝ} (h : a.length ≠ b.length) (h1 : a.length ≠ 1) (h2 : b.length ≠ 1) :
    bop f a b = .error .value := by
  rw [bop, if_neg h, if_neg h2, if_neg h1]

theorem lo_hi (a b : ℝ) : (if a > b then b else a) = min a b ∧ (if a > b then a else b) = max a b := by
  by_cases h : a > b
  · rw [if_pos h, if_pos h, min_eq_right h.le, max_eq_left h.le]; exact ⟨rfl, rfl⟩
  · rw [if_neg h, if_neg h, min_eq_left (not_lt.1 h), max_eq_right (not_lt.1 h)]; exact ⟨rfl, rfl⟩

theorem flux_interior {s : Sp} {c : FCont} (hs : WF s c) {lo hi : ℝ} {a b : Nat} (ha : 0 < a) (hab : a < b) (hb : b < s.x.length) :
    lineFlux s a b (slice s.flux a b) ((List.range (b - a)).map fun k => contAt s c lo hi (a + k)) = .ok (excess s c lo hi a b) := by
  have hfl : b ≤ s.flux.length := by rw [hs.flux]; omega
  simp only [lineFlux, slice_eq hfl]
  rw [if_neg (by omega), if_neg (by omega), bop_range]
  have hlen : (slice s.x (a - 1) (b + 1)).length = b - a + 2 := by rw [slice_eq (by omega)]; simp; omega
  simp only [conv3 (x := slice s.x (a - 1) (b + 1)) (by omega), hlen]
  rw [show b - a + 2 - 2 = b - a by omega, bop_range]
  simp only
  congr 1
  rw [excess, ← sum_shift]
  congr 1
  apply List.map_congr_left
  intro k hk
  have hk' := List.mem_range.1 hk
  rw [slice_eq (by omega)]
  have e1 : at' ((List.range (b + 1 - (a - 1))).map fun k => at' s.x (a - 1 + k)) (k + 2) = at' s.x (a + k + 1) := by
    rw [at', getD_get _ (by simp; omega)]
    simp only [List.getElem_map, List.getElem_range]
    congr 1; omega
  have e2 : at' ((List.range (b + 1 - (a - 1))).map fun k => at' s.x (a - 1 + k)) k = at' s.x (a + k - 1) := by
    rw [at', getD_get _ (by simp; omega)]
    simp only [List.getElem_map, List.getElem_range]
    congr 1; omega
  rw [e1, e2]

theorem center_eq {s : Sp} {c : FCont} (hs : WF s c) {a b : Nat} (hb : b ≤ s.x.length) :
    fdiv (List.zipWith (fun p q => p * q) (slice s.flux a b) (slice s.x a b)).sum (slice s.flux a b).sum = weighted s a b := by
  have hfl : b ≤ s.flux.length := by rw [hs.flux]; omega
  have hz : List.zipWith (fun p q : ℝ => p * q) (slice s.flux a b) (slice s.x a b) =
      (List.range (b - a)).map fun k => at' s.flux (a + k) * at' s.x (a + k) := by
    rw [slice_eq hfl, slice_eq hb]
    apply List.ext_getElem (by simp)
    intro k h1 h2
    simp
  rw [hz, slice_eq hfl, weighted, sum_shift (fun k => at' s.flux k * at' s.x k), sum_shift (fun k => at' s.flux k)]

theorem mean_eq {s : Sp} {c : FCont} {lo hi : ℝ} {a b : Nat} (hab : a ≤ b) :
    SpecAxis.mean ((List.range (b - a)).map fun k => contAt s c lo hi (a + k)) = meanCont s c lo hi a b := by
  rw [SpecAxis.mean, sum_shift (fun k => contAt s c lo hi k), meanCont]
  simp [Nat.cast_sub hab]

theorem direct_eq {s : Sp} {f : Feature} (hs : WF s f.cont) {p q : ℝ} (he : f.extent = some (p, q)) {a b : Nat}
    (hp : Pixels s.x (min p q) (max p q) a b) (hab : a < b) : computeDirect s f =
      match lineFlux s a b (slice s.flux a b) ((List.range (b - a)).map fun k => contAt s f.cont (min p q) (max p q) (a + k)) with
      | .error e => ({ f with center := some (weighted s a b) }, some e)
      | .ok lf => ({ f with center := some (weighted s a b), flux := lf, ew := some (fdiv lf (meanCont s f.cont (min p q) (max p q) a b)) }, none) := by
  have hb := hp.2.1
  obtain ⟨e1, e2⟩ := pixels_unique hp (pixels_found hs.inc (min_le_max (a := p) (b := q))) hab
  simp only [computeDirect, he, (lo_hi p q).1, (lo_hi p q).2, e1, e2]
  have hne : (slice s.x a b).isEmpty = false := by
    rw [slice_eq hb]
    simp only [List.isEmpty_map, List.isEmpty_eq_false_iff]
    intro h
    have := congrArg List.length h
    simp at this; omega
  rw [hne, cont_list hs hb, center_eq hs hb, mean_eq hab.le]
  simp only [Bool.false_eq_true, if_false]
  generalize lineFlux s a b (slice s.flux a b) ((List.range (b - a)).map fun k => contAt s f.cont (min p q) (max p q) (a + k)) = r
  cases r <;> rfl

/-! ## Theorems -/

/-- C148.  A feature whose ends lie between the first and the last pixel: its flux is the sum over the pixels inside of the flux
above the continuum times the pixel width, its centre the flux-weighted mean position of these pixels, and its equivalent
width the flux divided by the mean continuum. -/
theorem feature_exact {s : Sp} {f : Feature} (hs : WF s f.cont) {p q : ℝ} (he : f.extent = some (p, q)) (edges : Edges)
    (hed : edges = .interp ∨ edges = .off) {a b : Nat} (hp : Pixels s.x (min p q) (max p q) a b) (ha : 0 < a) (hab : a < b) (hb : b < s.x.length) :
    compute s f edges = ({ f with center := some (weighted s a b), flux := excess s f.cont (min p q) (max p q) a b, ew := some (fdiv (excess s f.cont (min p q) (max p q) a b) (meanCont s f.cont (min p q) (max p q) a b)) }, none) := by
  have : compute s f edges = computeDirect s f := by rcases hed with rfl | rfl <;> rfl
  rw [this, direct_eq hs he hp hab, flux_interior hs ha hab hb]

/-- C148.  Such pixel numbers exist whenever a pixel lies before the lower end, one between the ends, and one at or after the upper
end. -/
theorem pixels_exist {s : Sp} (hx : s.x.Pairwise (· < ·)) {lo hi : ℝ} {i j k : Nat} (hk : k < s.x.length) (hi' : i < j) (hj : j < k)
    (h1 : at' s.x i < lo) (h2 : lo ≤ at' s.x j) (h3 : at' s.x j < hi) (h4 : hi ≤ at' s.x k) :
    ∃ a b, Pixels s.x lo hi a b ∧ 0 < a ∧ a < b ∧ b < s.x.length := by
  have hp := pixels_found hx (lo := lo) (hi := hi) (by linarith)
  refine ⟨_, _, hp, ?_, ?_, ?_⟩
  · have := (lt_searchSorted hx lo (k := i) (by omega)).2 h1
    omega
  · have h := (hp.2.2 j (by omega)).1 ⟨h2, h3⟩
    omega
  · have := fun h => (lt_searchSorted hx hi hk).1 h
    by_contra hc
    have := this (by omega)
    linarith

/-- C148.  Whether the ends are given in increasing order does not matter, and so (defect) the two continuum values of a pair go with the
lower and the upper end in the order in which they are written, not with the ends they were given for. -/
theorem extent_order (s : Sp) (c : FCont) (p q : ℝ) :
    let f := compute s (newFeature p q c) .interp;
    let g := compute s (newFeature q p c) .interp;
    f.1.flux = g.1.flux ∧ f.1.center = g.1.center ∧ f.1.ew = g.1.ew ∧ f.2 = g.2 := by
  simp only [compute, computeDirect, newFeature, (lo_hi p q).1, (lo_hi p q).2, (lo_hi q p).1, (lo_hi q p).2, min_comm q p, max_comm q p]
  by_cases h : (slice s.x (searchSorted s.x (min p q)) (searchSorted s.x (max p q))).isEmpty = true
  · simp only [if_pos h, and_self]
  · simp only [if_neg h]
    cases lineFlux s (searchSorted s.x (min p q)) (searchSorted s.x (max p q)) (slice s.flux (searchSorted s.x (min p q)) (searchSorted s.x (max p q)))
      (contValues (chooseCont s c) (min p q) (max p q) (slice s.x (searchSorted s.x (min p q)) (searchSorted s.x (max p q)))
        (searchSorted s.x (min p q)) (searchSorted s.x (max p q))) <;> exact ⟨rfl, rfl, rfl, rfl⟩

/-- C148.  Pixels that all exceed the continuum by `d` give `d` times the distance between the outer boundaries of the first and
the last pixel, the boundaries being halfway between pixels. -/
theorem flat_excess {s : Sp} {c : FCont} {lo hi : ℝ} {a b : Nat} (ha : 0 < a) (hab : a < b) {d : ℝ}
    (h : ∀ k, a ≤ k → k < b → at' s.flux k - contAt s c lo hi k = d) :
    excess s c lo hi a b = d * ((at' s.x (b - 1) + at' s.x b) / 2 - (at' s.x (a - 1) + at' s.x a) / 2) := by
  have e1 : excess s c lo hi a b = ∑ k ∈ Finset.Ico a b, d * ((at' s.x k + at' s.x (k + 1)) / 2 - (at' s.x (k - 1) + at' s.x k) / 2) := by
    apply Finset.sum_congr rfl
    intro k hk
    obtain ⟨h1, h2⟩ := Finset.mem_Ico.1 hk
    rw [h k h1 h2]; ring
  rw [e1, ← Finset.mul_sum]
  congr 1
  have key : ∀ m, a ≤ m → ∑ k ∈ Finset.Ico a m, ((at' s.x k + at' s.x (k + 1)) / 2 - (at' s.x (k - 1) + at' s.x k) / 2) =
      (at' s.x (m - 1) + at' s.x m) / 2 - (at' s.x (a - 1) + at' s.x a) / 2 := by
    intro m hm
    induction m, hm using Nat.le_induction with
    | base => simp
    | succ m hm ih =>
      rw [Finset.sum_Ico_succ_top hm, ih]
      simp
  exact key b hab.le

/-- C148.  A feature without any pixel inside raises IndexError and is not changed. -/
theorem nothing_inside {s : Sp} {f : Feature} (hs : s.x.Pairwise (· < ·)) {p q : ℝ} (he : f.extent = some (p, q))
    (h : ∀ k, k < s.x.length → ¬ (min p q ≤ at' s.x k ∧ at' s.x k < max p q)) (edges : Edges) (hed : edges = .interp ∨ edges = .off) :
    compute s f edges = (f, some .index) := by
  have hc : compute s f edges = computeDirect s f := by rcases hed with rfl | rfl <;> rfl
  have hp := pixels_found hs (min_le_max (a := p) (b := q))
  have hab : searchSorted s.x (max p q) ≤ searchSorted s.x (min p q) := by
    by_contra hlt
    exact h (searchSorted s.x (min p q)) (by have := hp.2.1; omega) ((hp.2.2 _ (by have := hp.2.1; omega)).2 ⟨le_refl _, by omega⟩)
  have hsl : (slice s.x (searchSorted s.x (min p q)) (searchSorted s.x (max p q))).isEmpty = true := by
    simp [slice, Nat.sub_eq_zero_of_le hab]
  rw [hc]
  simp only [computeDirect, he, (lo_hi p q).1, (lo_hi p q).2, if_pos hsl]

/-- C148 (defect).  A feature of four or more pixels that reaches the first or the last pixel of the spectrum cannot be computed: the
pixel widths do not match.  The centre has been changed by then, the flux and the equivalent width have not. -/
theorem edge_refused {s : Sp} {f : Feature} (hs : WF s f.cont) {p q : ℝ} (he : f.extent = some (p, q)) (edges : Edges)
    (hed : edges = .interp ∨ edges = .off) {a b : Nat} (hp : Pixels s.x (min p q) (max p q) a b) (hab : a + 4 ≤ b) (hedge : a = 0 ∨ b = s.x.length) :
    compute s f edges = ({ f with center := some (weighted s a b) }, some .value) := by
  have hc : compute s f edges = computeDirect s f := by rcases hed with rfl | rfl <;> rfl
  have hb := hp.2.1
  have hfl : b ≤ s.flux.length := by rw [hs.flux]; exact hb
  rw [hc, direct_eq hs he hp (by omega)]
  have : lineFlux s a b (slice s.flux a b) ((List.range (b - a)).map fun k => contAt s f.cont (min p q) (max p q) (a + k)) = .error .value := by
    simp only [lineFlux, slice_eq hfl]
    rw [bop_range]
    set sl := slice s.x (if a = 0 then 0 else a - 1) (if b = 0 then 0 else b + 1) with hsl
    have hlen : 3 ≤ sl.length ∧ sl.length ≠ b - a + 2 ∧ sl.length ≤ b - a + 2 := by
      rw [hsl]
      simp only [slice, List.length_take, List.length_drop]
      rw [if_neg (show ¬ b = 0 by omega)]
      rcases hedge with rfl | h
      · rw [if_pos rfl]; omega
      · by_cases ha : a = 0
        · subst ha; simp only [if_pos]; omega
        · rw [if_neg ha]; omega
    simp only [conv3 hlen.1]
    have h4 : (4 : ℕ) ≤ sl.length := by
      rw [hsl]
      simp only [slice, List.length_take, List.length_drop]
      rw [if_neg (show ¬ b = 0 by omega)]
      by_cases ha : a = 0
      · subst ha; simp only [if_pos]; omega
      · rw [if_neg ha]; omega
    rw [bop_mismatch] <;> simp <;> omega
  rw [this]

/-- C148 (defect).  A feature of exactly two pixels at the start of the spectrum is computed, with one and the same width for both
pixels: half the distance from the first to the third. -/
theorem edge_two {s : Sp} {f : Feature} (hs : WF s f.cont) {p q : ℝ} (he : f.extent = some (p, q))
    (hp : Pixels s.x (min p q) (max p q) 0 2) (hn : 3 ≤ s.x.length) :
    (compute s f .interp).2 = none ∧ (compute s f .interp).1.flux =
      ((at' s.flux 0 - contAt s f.cont (min p q) (max p q) 0) + (at' s.flux 1 - contAt s f.cont (min p q) (max p q) 1)) * ((at' s.x 2 - at' s.x 0) / 2) := by
  have hfl : 2 ≤ s.flux.length := by rw [hs.flux]; omega
  have : lineFlux s 0 2 (slice s.flux 0 2) ((List.range (2 - 0)).map fun k => contAt s f.cont (min p q) (max p q) (0 + k)) = .ok
      (((at' s.flux 0 - contAt s f.cont (min p q) (max p q) 0) + (at' s.flux 1 - contAt s f.cont (min p q) (max p q) 1)) * ((at' s.x 2 - at' s.x 0) / 2)) := by
    simp only [lineFlux, slice_eq hfl]
    rw [bop_range]
    simp only [if_true, show ¬ (2 : ℕ) = 0 by omega, if_false]
    have hlen : (slice s.x 0 (2 + 1)).length = 3 := by rw [slice_eq (by omega)]; simp
    simp only [conv3 (x := slice s.x 0 (2 + 1)) (by omega), hlen]
    have e0 : at' (slice s.x 0 (2 + 1)) 2 = at' s.x 2 := by
      rw [slice_eq (by omega), at', getD_get _ (by simp)]; simp [at']
    have e1 : at' (slice s.x 0 (2 + 1)) 0 = at' s.x 0 := by
      rw [slice_eq (by omega), at', getD_get _ (by simp)]; simp [at']
    simp [List.range_succ, bop, e0, e1]
    ring
  show (computeDirect s f).2 = none ∧ _ = _
  have hd : compute s f .interp = computeDirect s f := rfl
  rw [hd, direct_eq hs he hp (by omega), this]
  exact ⟨rfl, rfl⟩

/-- C148.  Without a continuum there is no equivalent width: it is infinite or nan. -/
theorem no_continuum {s : Sp} {f : Feature} (hs : WF s f.cont) (hc : f.cont = .fromspec ∧ s.cont = .none ∨ f.cont = .own .none)
    {p q : ℝ} (he : f.extent = some (p, q)) (h : (compute s f .interp).2 = none) : (compute s f .interp).1.ew = some .bad := by
  have hd : compute s f .interp = computeDirect s f := rfl
  have hp := pixels_found hs.inc (min_le_max (a := p) (b := q))
  rw [hd] at h ⊢
  by_cases hab : searchSorted s.x (min p q) < searchSorted s.x (max p q)
  · rw [direct_eq hs he hp hab] at h ⊢
    have hm : meanCont s f.cont (min p q) (max p q) (searchSorted s.x (min p q)) (searchSorted s.x (max p q)) = 0 := by
      have : ∀ k, contAt s f.cont (min p q) (max p q) k = 0 := by
        intro k
        rcases hc with ⟨h1, h2⟩ | h1
        · simp [contAt, h1, h2, Cont.value]
        · simp [contAt, h1, Cont.value]
      simp [meanCont, this]
    revert h
    cases lineFlux s (searchSorted s.x (min p q)) (searchSorted s.x (max p q)) (slice s.flux (searchSorted s.x (min p q)) (searchSorted s.x (max p q)))
      ((List.range (searchSorted s.x (max p q) - searchSorted s.x (min p q))).map fun k => contAt s f.cont (min p q) (max p q) (searchSorted s.x (min p q) + k)) with
    | error e => intro h; simp at h
    | ok lf => intro _; simp [hm, fdiv]
  · have hsl : (slice s.x (searchSorted s.x (min p q)) (searchSorted s.x (max p q))).isEmpty = true := by
      simp [slice, Nat.sub_eq_zero_of_le (not_lt.1 hab)]
    simp only [computeDirect, he, (lo_hi p q).1, (lo_hi p q).2, if_pos hsl] at h
    simp at h

/-- C148.  'tweak' moves the ends to the first pixels at or above them, and then computes the feature; the pixels inside are the
same as before.  (With an upper end beyond the last pixel it raises IndexError.) -/
theorem tweak_exact {s : Sp} {f : Feature} (hs : s.x.Pairwise (· < ·)) {p q : ℝ} (he : f.extent = some (p, q)) {a b : Nat}
    (hp : Pixels s.x (min p q) (max p q) a b) (hab : a < b) :
    (b < s.x.length → compute s f .tweak = compute s { f with extent := some (at' s.x a, at' s.x b) } .off ∧
      Pixels s.x (min (at' s.x a) (at' s.x b)) (max (at' s.x a) (at' s.x b)) a b) ∧
    (b = s.x.length → compute s f .tweak = (f, some .index)) := by
  obtain ⟨e1, e2⟩ := pixels_unique hp (pixels_found hs (min_le_max (a := p) (b := q))) hab
  constructor
  · intro hb
    have ga : s.x[a]? = some (at' s.x a) := by simp [at', show a < s.x.length by omega]
    have gb : s.x[b]? = some (at' s.x b) := by simp [at', hb]
    refine ⟨?_, ?_⟩
    · simp only [compute, he, (lo_hi p q).1, (lo_hi p q).2, e1, e2, ga, gb]
    · have mono : ∀ i j, i < j → j < s.x.length → at' s.x i < at' s.x j := by
        intro i j hij hj
        rw [at', at', getD_get _ (by omega), getD_get _ hj]
        exact List.pairwise_iff_getElem.1 hs i j _ _ hij
      have hlt := mono a b hab hb
      rw [min_eq_left hlt.le, max_eq_right hlt.le]
      refine ⟨hab.le, hb.le, fun k hk => ?_⟩
      constructor
      · rintro ⟨h1, h2⟩
        refine ⟨?_, ?_⟩
        · by_contra hc; have := mono k a (by omega) (by omega); linarith
        · by_contra hc
          rcases Nat.lt_or_ge b k with h | h
          · have := mono b k h hk; linarith
          · have : k = b := by omega
            subst this; exact lt_irrefl _ h2
      · rintro ⟨h1, h2⟩
        refine ⟨?_, mono k b h2 hb⟩
        rcases Nat.lt_or_ge a k with h | h
        · exact (mono a k h hk).le
        · have : k = a := by omega
          subst this; exact le_rfl
  · intro hb
    have gb : s.x[b]? = none := by simp [hb]
    simp only [compute, he, (lo_hi p q).1, (lo_hi p q).2, e1, e2, gb]
    cases s.x[a]? <;> rfl

/-- C148.  An unknown value of `edges`, or a feature without an extent, raises ValueError and changes nothing. -/
theorem compute_refused (s : Sp) (f : Feature) (edges : Edges) (h : edges = .other ∨ f.extent = none) :
    compute s f edges = (f, some .value) := by
  rcases h with rfl | h
  · rfl
  · cases edges <;> simp [compute, computeDirect, h]

/-! ## The list of features -/

/-- C152.  Adding a feature either puts exactly one feature, the computed one, at the end of the list, or raises an exception and
leaves the list as it was. -/
theorem add_exact (s : Sp) (fs : List Feature) (lower upper : ℝ) (c : FCont) (id : Option Ident) :
    (∃ f, addFeatureRange s fs lower upper c id = (fs ++ [f], .ok f) ∧ (compute s (newFeature lower upper c) .interp).2 = none ∧
      f.flux = (compute s (newFeature lower upper c) .interp).1.flux ∧ f.extent = some (lower, upper) ∧
      f.center = (compute s (newFeature lower upper c) .interp).1.center ∧ f.ew = (compute s (newFeature lower upper c) .interp).1.ew ∧
      ((id = none ∧ f.known = none) ∨ ∃ n, id = some (.known n) ∧ f.known = some n)) ∨
    (∃ e, addFeatureRange s fs lower upper c id = (fs, .error e) ∧
      ((compute s (newFeature lower upper c) .interp).2 = some e ∨ (id = some .str ∧ e = .notImplemented) ∨ (id = some .other ∧ e = .value))) := by
  have hkeep : (compute s (newFeature lower upper c) .interp).1.extent = some (lower, upper) ∧
      (compute s (newFeature lower upper c) .interp).1.known = none := by
    have hd : compute s (newFeature lower upper c) .interp = computeDirect s (newFeature lower upper c) := rfl
    rw [hd]
    simp only [computeDirect, newFeature]
    generalize hcond : (slice s.x (searchSorted s.x (if lower > upper then upper else lower)) (searchSorted s.x (if lower > upper then lower else upper))).isEmpty = b
    cases b with
    | true => exact ⟨rfl, rfl⟩
    | false =>
      simp only [Bool.false_eq_true, if_false]
      split <;> exact ⟨rfl, rfl⟩
  simp only [addFeatureRange]
  generalize compute s (newFeature lower upper c) .interp = r at hkeep ⊢
  obtain ⟨g, o⟩ := r
  cases o with
  | some e => exact .inr ⟨e, rfl, .inl rfl⟩
  | none =>
    cases id with
    | none => exact .inl ⟨g, rfl, rfl, rfl, hkeep.1, rfl, rfl, .inl ⟨rfl, hkeep.2⟩⟩
    | some i =>
      cases i with
      | known n => exact .inl ⟨{ g with known := some n }, rfl, rfl, rfl, hkeep.1, rfl, rfl, .inr ⟨n, rfl, rfl⟩⟩
      | str => exact .inr ⟨_, rfl, .inr (.inl ⟨rfl, rfl⟩)⟩
      | other => exact .inr ⟨_, rfl, .inr (.inr ⟨rfl, rfl⟩)⟩

/-- C152.  Removing by number takes out exactly that feature (negative numbers count from the end); any other number raises
IndexError and nothing changes. -/
theorem remove_exact (fs : List Feature) :
    (∀ i : Nat, i < fs.length → removeFeature fs (.int i) = (fs.eraseIdx i, none)) ∧
      (∀ i : Nat, 0 < i → i ≤ fs.length → removeFeature fs (.int (-i)) = (fs.eraseIdx (fs.length - i), none)) ∧
      (∀ i : Int, (i < -fs.length ∨ (fs.length : Int) ≤ i) → removeFeature fs (.int i) = (fs, some .index)) := by
  refine ⟨fun i h => ?_, fun i h0 h => ?_, fun i h => ?_⟩
  · have e : (if (i : Int) < 0 then (i : Int) + fs.length else i) = i := if_neg (by omega)
    simp only [removeFeature, e]
    rw [if_pos ⟨by omega, by omega⟩]
    simp
  · have e : (if (-i : Int) < 0 then (-i : Int) + fs.length else -i) = -i + fs.length := if_pos (by omega)
    simp only [removeFeature, e]
    rw [if_pos ⟨by omega, by omega⟩]
    congr 2
    omega
  · simp only [removeFeature]
    split_ifs <;> first | rfl | omega

/-- C152 (defect).  A feature can never be removed by name. -/
theorem remove_by_name (fs : List Feature) : (removeFeature fs .str).1 = fs ∧
    (removeFeature fs .str).2 = some (if fs = [] then .type else .attribute) := by
  cases fs <;> exact ⟨rfl, by simp [removeFeature]⟩

theorem argmin_spec : ∀ (ds pre : List Num) (m : Num) (best : Nat), pre[best]? = some m →
    (∀ (j : Nat) (d : Num), pre[j]? = some d → ¬ before d m) →
    ∃ (i : Nat) (d : Num), argmin ds pre.length m best = i ∧ (pre ++ ds)[i]? = some d ∧ (∀ (j : Nat) (e : Num), (pre ++ ds)[j]? = some e → ¬ before e d)
  | [], pre, m, best, h1, h2 => ⟨best, m, rfl, by simpa using h1, by simpa using h2⟩
  | d :: ds, pre, m, best, h1, h2 => by
    rw [argmin]
    have hlast : (pre ++ [d])[pre.length]? = some d := by simp
    have happ : pre ++ d :: ds = (pre ++ [d]) ++ ds := by simp
    have hl : pre.length + 1 = (pre ++ [d]).length := by simp
    have htrans : ∀ a b c : Num, ¬ before a b → before c b → ¬ before a c := by
      intro a b c hab hcb hac
      cases a <;> cases b <;> cases c <;> simp only [before] at * <;> first | exact hab trivial | exact hab (hac.trans hcb)
    by_cases hb : before d m
    · rw [if_pos hb, hl, happ]
      have hirr : ∀ a : Num, ¬ before a a := by intro a; cases a <;> simp [before]
      refine argmin_spec ds (pre ++ [d]) d pre.length hlast ?_
      intro j e he
      rcases Nat.lt_trichotomy j pre.length with h | h | h
      · rw [List.getElem?_append_left h] at he
        exact htrans e m d (h2 j e he) hb
      · subst h; rw [hlast] at he; cases he; exact hirr _
      · rw [List.getElem?_eq_none (by simp; omega)] at he; simp at he
    · rw [if_neg hb, hl, happ]
      have hbl : best < pre.length := (List.getElem?_eq_some_iff.1 h1).1
      refine argmin_spec ds (pre ++ [d]) m best (by rw [List.getElem?_append_left hbl]; exact h1) ?_
      intro j e he
      rcases Nat.lt_trichotomy j pre.length with h | h | h
      · rw [List.getElem?_append_left h] at he; exact h2 j e he
      · subst h; rw [hlast] at he; cases he; exact hb
      · rw [List.getElem?_eq_none (by simp; omega)] at he; simp at he

/-- C152.  Removing by location takes out one feature, one whose centre is nearest to the location; features without a finite centre
go only if there are no others.  With no features it raises IndexError. -/
theorem remove_location (fs : List Feature) (loc : ℝ) :
    (fs = [] → removeLocation fs loc = (fs, some .index)) ∧
      (fs ≠ [] → ∃ (i : Nat) (f : Feature), fs[i]? = some f ∧ removeLocation fs loc = (fs.eraseIdx i, none) ∧ ∀ g ∈ fs, ¬ before (distance loc g) (distance loc f)) := by
  constructor
  · rintro rfl; rfl
  · intro hne
    obtain ⟨f0, l, rfl⟩ := List.exists_cons_of_ne_nil hne
    obtain ⟨i, d, hi, hd, hall⟩ := argmin_spec (l.map (distance loc)) [distance loc f0] (distance loc f0) 0 rfl
      (by
        intro j e he
        have : j = 0 := by
          by_contra hj
          rw [List.getElem?_eq_none (by simp; omega)] at he; simp at he
        subst this
        simp at he; subst he
        cases distance loc f0 <;> simp [before])
    have hmap : [distance loc f0] ++ l.map (distance loc) = (f0 :: l).map (distance loc) := rfl
    rw [hmap] at hd hall
    rw [List.getElem?_map, Option.map_eq_some_iff] at hd
    obtain ⟨f, hf, rfl⟩ := hd
    refine ⟨i, f, hf, ?_, ?_⟩
    · have hlt : i < (f0 :: l).length := (List.getElem?_eq_some_iff.1 hf).1
      have : removeLocation (f0 :: l) loc = removeFeature (f0 :: l) (.int (argmin (l.map (distance loc)) 1 (distance loc f0) 0)) := rfl
      have hi' : argmin (l.map (distance loc)) 1 (distance loc f0) 0 = i := hi
      rw [this, hi']
      exact (remove_exact _).1 i hlt
    · intro g hg
      obtain ⟨j, hj, rfl⟩ := List.mem_iff_getElem.1 hg
      exact hall j (distance loc (f0 :: l)[j]) (by rw [List.getElem?_map, List.getElem?_eq_getElem hj]; rfl)

/-- C152.  What "nearest" means: of two features with finite centres, one comes before the other exactly if its centre is nearer. -/
theorem before_iff (loc : ℝ) {f g : Feature} {a b : ℝ} (hf : getCenter f = some (.val a)) (hg : getCenter g = some (.val b)) :
    before (distance loc f) (distance loc g) ↔ |a - loc| < |b - loc| := by
  simp [distance, hf, hg, before]

/-- C152.  A feature with a finite centre comes before one without, and never the other way round. -/
theorem before_nan (loc : ℝ) {f g : Feature} {a : ℝ} (hf : getCenter f = some (.val a)) (hg : ∀ b, getCenter g ≠ some (.val b)) :
    before (distance loc f) (distance loc g) ∧ ¬ before (distance loc g) (distance loc f) := by
  have h : distance loc g = .bad := by
    unfold distance
    split
    · rename_i c hc; exact absurd hc (hg c)
    · rfl
  rw [h]
  simp [distance, hf, before]

/-- C152 (defect).  The features of a spectrum can be assigned only as long as it has none: after that every assignment, even of an
empty list, raises TypeError. -/
theorem assign_features (fs : List Feature) (v : List Feature) :
    setFeatures fs (v.map some) = if fs = [] then (v, none) else (fs, some .type) := by
  have h : (v.map some).any Option.isNone = false := by simp [List.any_eq_false]
  have h2 : (v.map some).filterMap id = v := by simp [List.filterMap_map]
  cases fs with
  | nil => simp [setFeatures, h, h2]
  | cons a l => simp [setFeatures, h]

/-- C152.  Something that is not a feature is refused with TypeError, and nothing changes. -/
theorem assign_refused (fs : List Feature) (v : List (Option Feature)) (h : none ∈ v) : setFeatures fs v = (fs, some .type) := by
  have : v.any Option.isNone = true := List.any_eq_true.2 ⟨none, h, rfl⟩
  simp [setFeatures, this]

/-- C152 (defect).  Changing the units of a feature replaces the error of its centre by (about) the centre itself: for every linear
conversion the new error is exactly the new centre, whatever the old error was. -/
theorem center_error_lost (k center err : ℝ) :
    convertCenter (fun t => k * t) center err = (k * center, k * center) := by
  simp only [convertCenter]; congr 1; ring

/-- The hypotheses can be met: five pixels, a feature over the two in the middle, over a constant continuum. -/
example : ∃ f, compute ⟨[0, 1, 2, 3, 4], [5, 5, 9, 5, 5], .arr [5, 5, 5, 5, 5]⟩ (newFeature 1 2.5 .fromspec) .interp = (f, none) ∧ f.flux = 4 := by
  have hw : WF ⟨[0, 1, 2, 3, 4], [5, 5, 9, 5, 5], .arr [5, 5, 5, 5, 5]⟩ (.fromspec) := by
    refine ⟨by simp; norm_num, rfl, ?_⟩
    rintro v (h | ⟨_, h⟩)
    · simp at h
    · cases h; rfl
  have hp : Pixels [0, 1, 2, 3, 4] (min (1 : ℝ) 2.5) (max 1 2.5) 1 3 := by
    rw [min_eq_left (by norm_num), max_eq_right (by norm_num)]
    refine ⟨by norm_num, by simp, fun k hk => ?_⟩
    match k, hk with
    | 0, _ => norm_num [at']
    | 1, _ => norm_num [at']
    | 2, _ => norm_num [at']
    | 3, _ => norm_num [at']
    | 4, _ => norm_num [at']
    | k + 5, hk => simp at hk
  refine ⟨_, feature_exact (f := newFeature 1 2.5 .fromspec) hw rfl .interp (.inl rfl) hp (by norm_num) (by norm_num) (by simp), ?_⟩
  norm_num [excess, Finset.sum_Ico_succ_top, contAt, Cont.value, at', newFeature]

/-- C148.  The centre of a feature: the one that was computed or set, otherwise the middle of its extent, otherwise none. -/
theorem center_exact (f : Feature) : (∀ c, f.center = some c → getCenter f = some c) ∧
    (f.center = none → ∀ a b, f.extent = some (a, b) → getCenter f = some (.val ((a + b) / 2))) ∧
    (f.center = none → f.extent = none → getCenter f = none) := by
  refine ⟨fun c h => by simp [getCenter, h], fun h a b he => by simp [getCenter, h, he], fun h he => by simp [getCenter, h, he]⟩

end Verif.SpecFeature

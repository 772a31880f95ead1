import Mathlib.Data.List.Basic
import Mathlib.Data.List.Sort
import Mathlib.Data.Rat.Floor
import Mathlib.Algebra.Order.Floor.Ring
import Mathlib.Tactic.Linarith
import Mathlib.Tactic.FieldSimp
import Mathlib.Tactic.Ring

/-!
# The edges of a spectral feature at a location (astropysics/spec.py 1021-1087) (C195)

`Spectrum.addFeatureLocation` up to the call of `addFeatureRange` (SpecFeature.lean) with the two edges.  Rationals instead of floats; the x axis increases.  The continuum is the list of its values at the
pixels (a continuum that is a function is evaluated pixel by pixel); the gaussian filter of scipy is any function of the width and the fluxes that keeps their number.  `np.argsort` is any sorting permutation.
-/

namespace Verif.SpecEdges

inductive Err
  | index
  /-- `from scipy.ndimage import unifom_filter1d` -/
  | import
  deriving DecidableEq

/-- `np.interp(loc, x, arange(x.size))`. -/
def interp (loc : ℚ) : List ℚ → ℚ
  | [] => 0
  | [_] => 0
  | a :: b :: r => if loc ≤ a then 0 else if loc < b then (loc - a) / (b - a) else 1 + interp loc (b :: r)

/-- `wl, wu, xwi` and the slice, spec.py 1037-1052: the first pixel, the end, and twice the centre counted from the first pixel. -/
def window (xi : ℚ) (n : ℕ) : Option ℚ → ℕ × ℕ × ℤ
  | none => (0, n, n - 1)
  | some w =>
    let wl := ⌊xi - w / 2⌋
    let wu := ⌈xi + w / 2⌉
    if wl < 0 then (0, wu.toNat, wu - wl + 2 * wl) else (wl.toNat, wu.toNat, wu - wl)

/-- `l[wl:wu]`. -/
def slice (wl wu : ℕ) (l : List ℚ) : List ℚ := (l.take wu).drop wl

/-- Indices at which the condition holds, `np.where(c)[0]`. -/
def whereTrue (p : ℚ → Bool) (l : List ℚ) : List ℕ := (List.range l.length).filter fun i => p (l.getD i 0)

/-- `np.sign`. -/
def sign (q : ℚ) : ℤ := if 0 < q then 1 else if q < 0 then -1 else 0

/-- `np.sign(np.convolve(y, [0, -1, 1], mode='same'))`, spec.py 1064: at pixel i the sign of `y[i - 1] - y[i]`. -/
def dysg (y : List ℚ) (i : ℕ) : ℤ := sign ((if i = 0 then 0 else y.getD (i - 1) 0) - y.getD i 0)

/-- `np.convolve(dysg, [-1, 1, 0], mode='same')`, spec.py 1065. -/
def trans (y : List ℚ) (i : ℕ) : ℤ := dysg y i - (if i + 1 < y.length then dysg y (i + 1) else 0)

/-- `transi`, spec.py 1067. -/
def transi (y : List ℚ) : List ℕ := (List.range y.length).filter fun i => trans y i ≠ 0

/-- `|transi - xwi|`, twice. -/
def dist (xwi : ℤ) (i : ℕ) : ℕ := (2 * (i : ℤ) - xwi).natAbs

/-- `np.argsort` of a list of distances: a permutation of the indices that sorts them. -/
structure Sorting where
  sort : List ℕ → List ℕ
  perm : ∀ l, (sort l).Perm (List.range l.length)
  sorted : ∀ l, ((sort l).map fun k => l.getD k 0).Pairwise (· ≤ ·)

/-- `a[idx]`. -/
def gather (a : List ℕ) (idx : List ℕ) : List ℕ := idx.map fun k => a.getD k 0

/-- `[...][0]`. -/
def first : List ℕ → Except Err ℕ
  | [] => .error .index
  | i :: _ => .ok i

def pair (a b : Except Err ℕ) : Except Err (ℕ × ℕ) :=
  match a with
  | .error e => .error e
  | .ok i => match b with
    | .error e => .error e
    | .ok j => .ok (i, j)

/-- The edges without a continuum, spec.py 1064-1071; `trans` is indexed with the positions in `transi`. -/
def edgesFlux (S : Sorting) (xwi : ℤ) (y : List ℚ) : Except Err (ℕ × ℕ) :=
  let ti := transi y
  let o := S.sort (ti.map (dist xwi))
  match o with
  | [] => .error .index
  | o0 :: _ =>
    let sgn := trans y o0
    let lower := (o.filter fun k => 2 * ((ti.getD k 0 : ℕ) : ℤ) < xwi ∧ trans y k ≠ sgn).map fun k => ti.getD k 0
    let upper := (o.filter fun k => xwi < 2 * ((ti.getD k 0 : ℕ) : ℤ) ∧ trans y k ≠ sgn).map fun k => ti.getD k 0
    pair (first lower) (first upper)

/-- The edges with a continuum, spec.py 1074-1084. -/
def edgesCont (S : Sorting) (xwi : ℤ) (y : List ℚ) : Except Err (ℕ × ℕ) :=
  let ti := whereTrue (fun q => sign q ≠ 0) y
  let s := gather ti (S.sort (ti.map (dist xwi)))
  pair (first (s.filter fun i => 2 * (i : ℤ) < xwi)) (first (s.filter fun i => xwi < 2 * (i : ℤ)))

/-- The spectrum. -/
structure Spec where
  x : List ℚ
  flux : List ℚ
  cont : Option (List ℚ)

/-- `addFeatureLocation` up to the edges, spec.py 1036-1086. -/
def edges (S : Sorting) (gauss : ℚ → List ℚ → List ℚ) (sp : Spec) (loc : ℚ) (smooth : Option ℚ) (win : Option ℚ) : Except Err (ℚ × ℚ) :=
  let w := window (interp loc sp.x) sp.x.length win
  let x := slice w.1 w.2.1 sp.x
  let y := slice w.1 w.2.1 sp.flux
  let go (y : List ℚ) : Except Err (ℚ × ℚ) :=
    (match sp.cont with
      | none => edgesFlux S w.2.2 y
      | some c => edgesCont S w.2.2 (List.zipWith (· - ·) y (slice w.1 w.2.1 c))).map fun p : ℕ × ℕ => (x.getD p.1 0, x.getD p.2 0)
  match smooth with
  | none => go y
  | some s => if 0 < s then go (gauss s y) else .error .import

/-! ## Specification -/

/-- The last pixel before the position `c/2` at which a condition holds. -/
def LastBefore (p : ℕ → Prop) (c : ℤ) (i : ℕ) : Prop := p i ∧ 2 * (i : ℤ) < c ∧ ∀ k, p k → 2 * (k : ℤ) < c → k ≤ i
def FirstAfter (p : ℕ → Prop) (c : ℤ) (j : ℕ) : Prop := p j ∧ c < 2 * (j : ℤ) ∧ ∀ k, p k → c < 2 * (k : ℤ) → j ≤ k

/-! ## Proofs -/

theorem interp_range (loc : ℚ) : ∀ x : List ℚ, x ≠ [] → x.Pairwise (· < ·) → 0 ≤ interp loc x ∧ interp loc x ≤ (x.length : ℚ) - 1 := by
  intro x
  induction x with
  | nil => intro h; exact absurd rfl h
  | cons a r ih =>
    intro _ hs
    cases r with
    | nil => simp [interp]
    | cons b r =>
      have hab : a < b := (List.pairwise_cons.1 hs).1 b (by simp)
      have ih' := ih (by simp) (List.pairwise_cons.1 hs).2
      simp only [List.length_cons, Nat.cast_add, Nat.cast_one] at ih' ⊢
      have hr : (0 : ℚ) ≤ r.length := by positivity
      unfold interp
      split_ifs with h1 h2
      · exact ⟨le_refl _, by linarith⟩
      · have hd : 0 < b - a := by linarith
        have h3 : (loc - a) / (b - a) < 1 := by rw [div_lt_one hd]; linarith
        exact ⟨by have : 0 < loc - a := by linarith
                  positivity, by linarith⟩
      · exact ⟨by linarith [ih'.1], by linarith [ih'.2]⟩

/-- The position of a location that is inside the axis: pixels up to it are at or before the location, pixels from it on at or after it. -/
theorem interp_bracket (loc : ℚ) : ∀ x : List ℚ, x.Pairwise (· < ·) → (∀ a, x.head? = some a → a ≤ loc) → (∀ b, x.getLast? = some b → loc ≤ b) →
    ∀ k, k < x.length → ((k : ℚ) ≤ interp loc x → x.getD k 0 ≤ loc) ∧ (interp loc x ≤ (k : ℚ) → loc ≤ x.getD k 0) := by
  intro x
  induction x with
  | nil => intro _ _ _ k hk; simp at hk
  | cons a r ih =>
    intro hs h1 h2 k hk
    cases r with
    | nil =>
      have : k = 0 := by simpa using hk
      subst this
      exact ⟨fun _ => h1 a rfl, fun _ => h2 a rfl⟩
    | cons b r =>
      have hab : a < b := (List.pairwise_cons.1 hs).1 b (by simp)
      have ha := h1 a rfl
      have hall := (List.pairwise_cons.1 hs).1
      have hpb := (List.pairwise_cons.1 (List.pairwise_cons.1 hs).2).1
      have hge : ∀ k, k < (b :: r).length → b ≤ (b :: r).getD k 0 := by
        intro k hk
        cases k with
        | zero => simp
        | succ k =>
          have hk' : k < r.length := by simpa using hk
          have : (b :: r).getD (k + 1) 0 = r[k] := by simp [hk']
          rw [this]; exact (hpb _ (List.getElem_mem hk')).le
      unfold interp
      by_cases hla : loc ≤ a
      · have hea : loc = a := le_antisymm hla ha
        rw [if_pos hla]
        cases k with
        | zero => exact ⟨fun _ => by simpa using ha, fun _ => by simpa using hla⟩
        | succ k =>
          refine ⟨fun h => ?_, fun _ => ?_⟩
          · exfalso; push_cast at h; have : (0 : ℚ) ≤ k := by positivity
            linarith
          · have := hge k (by simpa using hk)
            simp only [List.getD_cons_succ]; linarith
      · rw [if_neg hla]
        by_cases hlb : loc < b
        · rw [if_pos hlb]
          have hd : 0 < b - a := by linarith
          have h3 : (loc - a) / (b - a) < 1 := by rw [div_lt_one hd]; linarith
          have h4 : 0 < (loc - a) / (b - a) := by have : 0 < loc - a := by linarith
                                                  positivity
          cases k with
          | zero => exact ⟨fun _ => by simpa using ha, fun h => by exfalso; push_cast at h; linarith⟩
          | succ k =>
            refine ⟨fun h => ?_, fun _ => ?_⟩
            · exfalso; push_cast at h; have : (0 : ℚ) ≤ k := by positivity
              linarith
            · have := hge k (by simpa using hk)
              simp only [List.getD_cons_succ]; linarith
        · rw [if_neg hlb]
          have ih' := ih (List.pairwise_cons.1 hs).2 (by intro c hc; simp only [List.head?_cons, Option.some.injEq] at hc; subst hc; linarith)
            (by intro c hc; apply h2; rw [List.getLast?_cons_cons]; exact hc)
          have hnn := (interp_range loc (b :: r) (by simp) (List.pairwise_cons.1 hs).2).1
          cases k with
          | zero => exact ⟨fun _ => by simpa using ha, fun h => by exfalso; push_cast at h; linarith⟩
          | succ k =>
            have := ih' k (by simpa using hk)
            simp only [List.getD_cons_succ]
            push_cast
            exact ⟨fun h => this.1 (by linarith), fun h => this.2 (by linarith)⟩

theorem first_filter (l : List ℕ) (p : ℕ → Bool) (i : ℕ) : first (l.filter p) = .ok i ↔ ∃ a b, l = a ++ i :: b ∧ p i = true ∧ ∀ k ∈ a, p k = false := by
  induction l with
  | nil => simp [first]
  | cons x l ih =>
    cases hx : p x with
    | true =>
      simp only [List.filter_cons, hx, if_true, first, Except.ok.injEq]
      constructor
      · rintro rfl; exact ⟨[], l, rfl, hx, by simp⟩
      · rintro ⟨a, b, e, hp, ha⟩
        cases a with
        | nil => simp only [List.nil_append, List.cons.injEq] at e; exact e.1
        | cons y a => simp only [List.cons_append, List.cons.injEq] at e; have := ha y (by simp); rw [← e.1, hx] at this; simp at this
    | false =>
      simp only [List.filter_cons, hx, Bool.false_eq_true, if_false, ih]
      constructor
      · rintro ⟨a, b, rfl, hp, ha⟩
        exact ⟨x :: a, b, rfl, hp, by intro k hk; rcases List.mem_cons.1 hk with rfl | hk; exacts [hx, ha k hk]⟩
      · rintro ⟨a, b, e, hp, ha⟩
        cases a with
        | nil => simp only [List.nil_append, List.cons.injEq] at e; rw [← e.1, hx] at hp; simp at hp
        | cons y a => simp only [List.cons_append, List.cons.injEq] at e; exact ⟨a, b, e.2, hp, fun k hk => ha k (by simp [hk])⟩

theorem first_error (l : List ℕ) (p : ℕ → Bool) : first (l.filter p) = .error .index ↔ ∀ k ∈ l, p k = false := by
  cases h : l.filter p with
  | nil => simp only [first, true_iff]; intro k hk; have := List.filter_eq_nil_iff.1 h k hk; simpa using this
  | cons x t =>
    simp only [first, reduceCtorEq, false_iff, not_forall]
    have hx : x ∈ l.filter p := by rw [h]; simp
    rw [List.mem_filter] at hx
    exact ⟨x, hx.1, by simp [hx.2]⟩

/-- The indices in the order of their distances. -/
theorem gather_spec (S : Sorting) (ti : List ℕ) (xwi : ℤ) : (∀ i, i ∈ gather ti (S.sort (ti.map (dist xwi))) ↔ i ∈ ti) ∧ (gather ti (S.sort (ti.map (dist xwi)))).Pairwise (fun i j => dist xwi i ≤ dist xwi j) := by
  have hp := S.perm (ti.map (dist xwi))
  have hs := S.sorted (ti.map (dist xwi))
  have hmem : ∀ k ∈ S.sort (ti.map (dist xwi)), k < ti.length := by
    intro k hk; have := hp.mem_iff.1 hk; simpa using this
  constructor
  · intro i
    unfold gather
    rw [List.mem_map]
    constructor
    · rintro ⟨k, hk, rfl⟩
      have := hmem k hk
      have e : ti.getD k 0 = ti[k] := by simp [this]
      rw [e]; exact List.getElem_mem this
    · intro hi
      obtain ⟨k, hk, rfl⟩ := List.getElem_of_mem hi
      refine ⟨k, hp.mem_iff.2 (by simpa using hk), ?_⟩
      simp [hk]
  · unfold gather
    rw [List.pairwise_map] at hs ⊢
    refine hs.imp_of_mem ?_
    intro a b ha hb h
    have h1 := hmem a ha
    have h2 := hmem b hb
    simpa [h1, h2] using h

/-- With a continuum the edges are the nearest pixels on either side of the centre whose flux is not the continuum; if there is none on one side it is an IndexError. -/
theorem edgesCont_exact (S : Sorting) (c : ℤ) (y : List ℚ) : (∀ i j, edgesCont S c y = .ok (i, j) ↔
      LastBefore (fun k => k < y.length ∧ y.getD k 0 ≠ 0) c i ∧ FirstAfter (fun k => k < y.length ∧ y.getD k 0 ≠ 0) c j) ∧
    (edgesCont S c y = .error .index ↔ (∀ k, k < y.length → y.getD k 0 ≠ 0 → ¬ 2 * (k : ℤ) < c) ∨ ∀ k, k < y.length → y.getD k 0 ≠ 0 → ¬ c < 2 * (k : ℤ)) := by
  set ti := whereTrue (fun q => sign q ≠ 0) y with hti
  obtain ⟨hmem, hsort⟩ := gather_spec S ti c
  set s := gather ti (S.sort (ti.map (dist c))) with hs
  have hmem2 : ∀ k, k ∈ s ↔ k < y.length ∧ y.getD k 0 ≠ 0 := by
    intro k
    rw [hmem k, hti]
    unfold whereTrue
    rw [List.mem_filter, List.mem_range, decide_eq_true_eq]
    have : sign (y.getD k 0) ≠ 0 ↔ y.getD k 0 ≠ 0 := by
      generalize y.getD k 0 = q
      unfold sign
      rcases lt_trichotomy q 0 with h | h | h
      · simp [h, h.ne, not_lt.2 h.le]
      · simp [h]
      · simp [h, h.ne']
    rw [this]
  have he : edgesCont S c y = pair (first (s.filter fun i => 2 * (i : ℤ) < c)) (first (s.filter fun i => c < 2 * (i : ℤ))) := rfl
  have hfe' : ∀ l e, first l = .error e → e = .index := by intro l e h; cases l <;> simp [first] at h; exact h.symm
  have hlo : ∀ i, first (s.filter fun i => decide (2 * (i : ℤ) < c)) = .ok i ↔ LastBefore (fun k => k < y.length ∧ y.getD k 0 ≠ 0) c i := by
    intro i
    constructor
    · intro h
      obtain ⟨a, b, e, hp, ha⟩ := (first_filter s _ i).1 h
      have hp' := of_decide_eq_true hp
      refine ⟨(hmem2 i).1 (by rw [e]; simp), hp', ?_⟩
      intro k hk hkc
      have hks := (hmem2 k).2 hk
      rw [e] at hks hsort
      rcases List.mem_append.1 hks with h1 | h1
      · have := ha k h1; simp [hkc] at this
      · rcases List.mem_cons.1 h1 with rfl | h1
        · exact le_refl _
        · have h2 := (List.pairwise_cons.1 (List.pairwise_append.1 hsort).2.1).1 k h1
          unfold dist at h2; omega
    · rintro ⟨hi, hic, hmax⟩
      have hne : first (s.filter fun i => decide (2 * (i : ℤ) < c)) ≠ .error .index := by
        intro h; have := (first_error s _).1 h i ((hmem2 i).2 hi); simp [hic] at this
      cases hf : first (s.filter fun i => decide (2 * (i : ℤ) < c)) with
      | error e => exact absurd (hfe' _ e hf ▸ hf) hne
      | ok i' =>
        obtain ⟨a, b, e, hp, ha⟩ := (first_filter s _ i').1 hf
        have hp' := of_decide_eq_true hp
        have h1 := hmax i' ((hmem2 i').1 (by rw [e]; simp)) hp'
        have hks := (hmem2 i).2 hi
        rw [e] at hks hsort
        rcases List.mem_append.1 hks with h2 | h2
        · have := ha i h2; simp [hic] at this
        · rcases List.mem_cons.1 h2 with rfl | h2
          · rfl
          · have h3 := (List.pairwise_cons.1 (List.pairwise_append.1 hsort).2.1).1 i h2
            unfold dist at h3
            have : i = i' := by omega
            rw [this]
  have hup : ∀ i, first (s.filter fun i => decide (c < 2 * (i : ℤ))) = .ok i ↔ FirstAfter (fun k => k < y.length ∧ y.getD k 0 ≠ 0) c i := by
    intro i
    constructor
    · intro h
      obtain ⟨a, b, e, hp, ha⟩ := (first_filter s _ i).1 h
      have hp' := of_decide_eq_true hp
      refine ⟨(hmem2 i).1 (by rw [e]; simp), hp', ?_⟩
      intro k hk hkc
      have hks := (hmem2 k).2 hk
      rw [e] at hks hsort
      rcases List.mem_append.1 hks with h1 | h1
      · have := ha k h1; simp [hkc] at this
      · rcases List.mem_cons.1 h1 with rfl | h1
        · exact le_refl _
        · have h2 := (List.pairwise_cons.1 (List.pairwise_append.1 hsort).2.1).1 k h1
          unfold dist at h2; omega
    · rintro ⟨hi, hic, hmax⟩
      have hne : first (s.filter fun i => decide (c < 2 * (i : ℤ))) ≠ .error .index := by
        intro h; have := (first_error s _).1 h i ((hmem2 i).2 hi); simp [hic] at this
      cases hf : first (s.filter fun i => decide (c < 2 * (i : ℤ))) with
      | error e => exact absurd (hfe' _ e hf ▸ hf) hne
      | ok i' =>
        obtain ⟨a, b, e, hp, ha⟩ := (first_filter s _ i').1 hf
        have hp' := of_decide_eq_true hp
        have h1 := hmax i' ((hmem2 i').1 (by rw [e]; simp)) hp'
        have hks := (hmem2 i).2 hi
        rw [e] at hks hsort
        rcases List.mem_append.1 hks with h2 | h2
        · have := ha i h2; simp [hic] at this
        · rcases List.mem_cons.1 h2 with rfl | h2
          · rfl
          · have h3 := (List.pairwise_cons.1 (List.pairwise_append.1 hsort).2.1).1 i h2
            unfold dist at h3
            have : i = i' := by omega
            rw [this]
  have hel := first_error s (fun i => decide (2 * (i : ℤ) < c))
  have heu := first_error s (fun i => decide (c < 2 * (i : ℤ)))
  have hfe : ∀ l, (∃ i, first l = .ok i) ∨ first l = .error .index := by intro l; cases l; exacts [Or.inr rfl, Or.inl ⟨_, rfl⟩]
  have hel2 : first (s.filter fun i => decide (2 * (i : ℤ) < c)) = .error .index ↔ ∀ k, k < y.length → y.getD k 0 ≠ 0 → ¬ 2 * (k : ℤ) < c := by
    rw [hel]
    exact ⟨fun h k h1 h2 => of_decide_eq_false (h k ((hmem2 k).2 ⟨h1, h2⟩)), fun h k hk => decide_eq_false (h k ((hmem2 k).1 hk).1 ((hmem2 k).1 hk).2)⟩
  have heu2 : first (s.filter fun i => decide (c < 2 * (i : ℤ))) = .error .index ↔ ∀ k, k < y.length → y.getD k 0 ≠ 0 → ¬ c < 2 * (k : ℤ) := by
    rw [heu]
    exact ⟨fun h k h1 h2 => of_decide_eq_false (h k ((hmem2 k).2 ⟨h1, h2⟩)), fun h k hk => decide_eq_false (h k ((hmem2 k).1 hk).1 ((hmem2 k).1 hk).2)⟩
  refine ⟨?_, ?_⟩
  · intro i j
    rw [he, ← hlo i, ← hup j]
    rcases hfe (s.filter fun i => decide (2 * (i : ℤ) < c)) with ⟨i', h1⟩ | h1 <;> rcases hfe (s.filter fun i => decide (c < 2 * (i : ℤ))) with ⟨j', h2⟩ | h2 <;> simp [h1, h2, pair]
  · rw [he, ← hel2, ← heu2]
    rcases hfe (s.filter fun i => decide (2 * (i : ℤ) < c)) with ⟨i', h1⟩ | h1 <;> rcases hfe (s.filter fun i => decide (c < 2 * (i : ℤ))) with ⟨j', h2⟩ | h2 <;> simp [h1, h2, pair]

theorem slice_getD (wl wu : ℕ) (l : List ℚ) (k : ℕ) (h : k < (slice wl wu l).length) : (slice wl wu l).getD k 0 = l.getD (wl + k) 0 := by
  unfold slice at h ⊢
  simp only [List.length_drop, List.length_take] at h
  have h1 : wl + k < wu := by omega
  have h2 : wl + k < l.length := by omega
  simp [List.getElem?_drop, List.getElem?_take, h1]

theorem slice_length (wl wu : ℕ) (l : List ℚ) : (slice wl wu l).length = min wu l.length - wl := by simp [slice]

/-- A pixel in the window whose flux is not the continuum. -/
def Differs (sp : Spec) (c : List ℚ) (wl wu : ℤ) (k : ℕ) : Prop := wl ≤ k ∧ (k : ℤ) < wu ∧ k < sp.x.length ∧ sp.flux.getD k 0 ≠ c.getD k 0

/-- C195.  With a continuum (and no smoothing): the edges are the x values of the nearest pixels on either side of the location, in the window, whose flux is not the continuum. -/
theorem cont_exact (S : Sorting) (gauss : ℚ → List ℚ → List ℚ) (sp : Spec) (c : List ℚ) (hc : sp.cont = some c) (hf : sp.flux.length = sp.x.length) (hcl : c.length = sp.x.length)
    (hx : sp.x ≠ []) (hs : sp.x.Pairwise (· < ·)) (loc w : ℚ) (hw : 0 < w) (wl wu : ℤ) (hwl : wl = ⌊interp loc sp.x - w / 2⌋) (hwu : wu = ⌈interp loc sp.x + w / 2⌉) (lo hi : ℚ) :
    edges S gauss sp loc none (some w) = .ok (lo, hi) ↔
      ∃ i j, LastBefore (Differs sp c wl wu) (wl + wu) i ∧ FirstAfter (Differs sp c wl wu) (wl + wu) j ∧ lo = sp.x.getD i 0 ∧ hi = sp.x.getD j 0 := by
  have hxi := (interp_range loc sp.x hx hs).1
  have hwu0 : 0 < wu := by rw [hwu]; exact Int.ceil_pos.2 (by linarith)
  -- the window
  obtain ⟨a, b, cc, hwin, ha, hb, hcc⟩ : ∃ a b : ℕ, ∃ cc : ℤ, window (interp loc sp.x) sp.x.length (some w) = (a, b, cc) ∧ (a : ℤ) = max wl 0 ∧ (b : ℤ) = wu ∧ cc = wl + wu - 2 * a := by
    simp only [window, ← hwl, ← hwu]
    split
    · rename_i h; exact ⟨0, wu.toNat, _, rfl, by simp [h.le], by omega, by push_cast; ring⟩
    · rename_i h; exact ⟨wl.toNat, wu.toNat, _, rfl, by omega, by omega, by omega⟩
  have hlen : ∀ l : List ℚ, l.length = sp.x.length → (slice a b l).length = min b sp.x.length - a := by intro l hl; rw [slice_length, hl]
  set y := List.zipWith (· - ·) (slice a b sp.flux) (slice a b c) with hy
  have hyl : y.length = min b sp.x.length - a := by rw [hy, List.length_zipWith, hlen _ hf, hlen _ hcl, min_self]
  have hyd : ∀ k, k < y.length → y.getD k 0 = sp.flux.getD (a + k) 0 - c.getD (a + k) 0 := by
    intro k hk
    have h1 : k < (slice a b sp.flux).length := by rw [hlen _ hf]; omega
    have h2 : k < (slice a b c).length := by rw [hlen _ hcl]; omega
    rw [← slice_getD a b sp.flux k h1, ← slice_getD a b c k h2]
    have h3 : k < (List.zipWith (· - ·) (slice a b sp.flux) (slice a b c)).length := hk
    rw [hy]
    simp [h1, h2]
  have hP : ∀ k, (k < y.length ∧ y.getD k 0 ≠ 0) ↔ Differs sp c wl wu (a + k) := by
    intro k
    unfold Differs
    constructor
    · rintro ⟨h1, h2⟩
      rw [hyd k h1] at h2
      rw [hyl] at h1
      exact ⟨by push_cast; omega, by push_cast; omega, by omega, fun h => h2 (by rw [h]; ring)⟩
    · rintro ⟨_, h1, h2, h3⟩
      push_cast at h1
      have hk : k < y.length := by rw [hyl]; omega
      exact ⟨hk, by rw [hyd k hk]; exact sub_ne_zero.2 h3⟩
  have hA : ∀ k, Differs sp c wl wu k → ∃ k', k = a + k' := by
    intro k hk; exact ⟨k - a, by have := hk.1; omega⟩
  have he : edges S gauss sp loc none (some w) = (edgesCont S cc y).map fun p : ℕ × ℕ => ((slice a b sp.x).getD p.1 0, (slice a b sp.x).getD p.2 0) := by
    unfold edges
    simp only [hwin, hc]
    rfl
  have hL : ∀ i, LastBefore (fun k => k < y.length ∧ y.getD k 0 ≠ 0) cc i ↔ LastBefore (Differs sp c wl wu) (wl + wu) (a + i) := by
    intro i
    simp only [LastBefore]
    rw [hP i]
    constructor
    · rintro ⟨h1, h2, h3⟩
      refine ⟨h1, by push_cast; omega, ?_⟩
      intro k hk hkc
      obtain ⟨k', rfl⟩ := hA k hk
      have := h3 k' ((hP k').2 hk) (by push_cast at hkc; omega)
      omega
    · rintro ⟨h1, h2, h3⟩
      refine ⟨h1, by push_cast at h2; omega, ?_⟩
      intro k hk hkc
      have := h3 (a + k) ((hP k).1 hk) (by push_cast; omega)
      omega
  have hU : ∀ i, FirstAfter (fun k => k < y.length ∧ y.getD k 0 ≠ 0) cc i ↔ FirstAfter (Differs sp c wl wu) (wl + wu) (a + i) := by
    intro i
    simp only [FirstAfter]
    rw [hP i]
    constructor
    · rintro ⟨h1, h2, h3⟩
      refine ⟨h1, by push_cast; omega, ?_⟩
      intro k hk hkc
      obtain ⟨k', rfl⟩ := hA k hk
      have := h3 k' ((hP k').2 hk) (by push_cast at hkc; omega)
      omega
    · rintro ⟨h1, h2, h3⟩
      refine ⟨h1, by push_cast at h2; omega, ?_⟩
      intro k hk hkc
      have := h3 (a + k) ((hP k).1 hk) (by push_cast; omega)
      omega
  have hin : ∀ k, (k < y.length ∧ y.getD k 0 ≠ 0) → (slice a b sp.x).getD k 0 = sp.x.getD (a + k) 0 := by
    intro k hk; exact slice_getD a b sp.x k (by rw [hlen _ rfl, ← hyl]; exact hk.1)
  rw [he]
  constructor
  · intro h
    cases hec : edgesCont S cc y with
    | error e => rw [hec] at h; simp [Except.map] at h
    | ok p =>
      rw [hec] at h
      simp only [Except.map, Except.ok.injEq, Prod.mk.injEq] at h
      obtain ⟨h1, h2⟩ := ((edgesCont_exact S cc y).1 p.1 p.2).1 hec
      exact ⟨a + p.1, a + p.2, (hL _).1 h1, (hU _).1 h2, by rw [← h.1]; exact hin _ h1.1, by rw [← h.2]; exact hin _ h2.1⟩
  · rintro ⟨i, j, h1, h2, rfl, rfl⟩
    obtain ⟨i, rfl⟩ := hA i h1.1
    obtain ⟨j, rfl⟩ := hA j h2.1
    have g1 := (hL i).2 h1
    have g2 := (hU j).2 h2
    rw [((edgesCont_exact S cc y).1 i j).2 ⟨g1, g2⟩]
    simp only [Except.map, Except.ok.injEq, Prod.mk.injEq]
    exact ⟨hin _ g1.1, hin _ g2.1⟩

/-- C195.  The feature then contains the location. -/
theorem cont_contains (S : Sorting) (gauss : ℚ → List ℚ → List ℚ) (sp : Spec) (c : List ℚ) (hc : sp.cont = some c) (hf : sp.flux.length = sp.x.length) (hcl : c.length = sp.x.length)
    (hx : sp.x ≠ []) (hs : sp.x.Pairwise (· < ·)) (loc w : ℚ) (hw : 0 < w) (h1 : ∀ a, sp.x.head? = some a → a ≤ loc) (h2 : ∀ b, sp.x.getLast? = some b → loc ≤ b) (lo hi : ℚ)
    (h : edges S gauss sp loc none (some w) = .ok (lo, hi)) : lo ≤ loc ∧ loc ≤ hi ∧ lo < hi := by
  obtain ⟨i, j, hi, hj, rfl, rfl⟩ := (cont_exact S gauss sp c hc hf hcl hx hs loc w hw _ _ rfl rfl lo hi).1 h
  have e1 := Int.floor_le (interp loc sp.x - w / 2)
  have e2 := Int.lt_floor_add_one (interp loc sp.x - w / 2)
  have e3 := Int.le_ceil (interp loc sp.x + w / 2)
  have e4 := Int.ceil_lt_add_one (interp loc sp.x + w / 2)
  generalize ⌊interp loc sp.x - w / 2⌋ = wl at *
  generalize ⌈interp loc sp.x + w / 2⌉ = wu at *
  have hib := hi.2.1
  have hjb := hj.2.1
  have hi' : (2 : ℚ) * i ≤ wl + wu - 1 := by have : (2 : ℤ) * i ≤ wl + wu - 1 := by omega
                                             exact_mod_cast this
  have hj' : (wl : ℚ) + wu + 1 ≤ 2 * j := by have : wl + wu + 1 ≤ (2 : ℤ) * j := by omega
                                             exact_mod_cast this
  have b1 := (interp_bracket loc sp.x hs h1 h2 i hi.1.2.2.1).1 (by linarith)
  have b2 := (interp_bracket loc sp.x hs h1 h2 j hj.1.2.2.1).2 (by linarith)
  refine ⟨b1, b2, ?_⟩
  have hij : i < j := by omega
  have l1 := hi.1.2.2.1
  have l2 := hj.1.2.2.1
  have g1 : sp.x.getD i 0 = sp.x[i] := by simp [l1]
  have g2 : sp.x.getD j 0 = sp.x[j] := by simp [l2]
  rw [g1, g2]
  exact List.pairwise_iff_getElem.1 hs i j l1 l2 hij

/-- C195.  Without a window the location is not used at all: the edges are those around the middle of the spectrum. -/
theorem no_window (S : Sorting) (gauss : ℚ → List ℚ → List ℚ) (sp : Spec) (loc loc' : ℚ) (smooth : Option ℚ) : edges S gauss sp loc smooth none = edges S gauss sp loc' smooth none := rfl

/-- C195.  A boxcar filter is always an ImportError. -/
theorem boxcar (S : Sorting) (gauss : ℚ → List ℚ → List ℚ) (sp : Spec) (loc s : ℚ) (hs : s ≤ 0) (win : Option ℚ) : edges S gauss sp loc (some s) win = .error .import := by
  simp [edges, not_lt.2 hs]

/-- C195.  Without a continuum the changes of direction are: the pixels at which the flux goes (up, down or level) otherwise than from the pixel before, the flux before the first pixel counting as zero; and
the last pixel unless it is level with the one before. -/
theorem turns_exact (y : List ℚ) (k : ℕ) : k ∈ transi y ↔ ∃ before : ℚ, (k = 0 → before = 0) ∧ (k ≠ 0 → before = y.getD (k - 1) 0) ∧
    ((k + 1 = y.length ∧ y.getD k 0 ≠ before) ∨ (k + 1 < y.length ∧ ¬ (compare before (y.getD k 0) = compare (y.getD k 0) (y.getD (k + 1) 0)))) := by
  have hs : ∀ a b : ℚ, sign (a - b) = 0 ↔ b = a := by
    intro a b; unfold sign; split
    · constructor
      · intro h; simp at h
      · intro h; subst h; simp at *
    · split
      · constructor
        · intro h; simp at h
        · intro h; subst h; simp at *
      · simp only [true_iff]; linarith
  have hc : ∀ a b c d : ℚ, sign (a - b) = sign (c - d) ↔ compare a b = compare c d := by
    intro a b c d
    have h1 : ∀ a b : ℚ, (a < b ∧ sign (a - b) = -1 ∧ compare a b = .lt) ∨ (a = b ∧ sign (a - b) = 0 ∧ compare a b = .eq) ∨ (b < a ∧ sign (a - b) = 1 ∧ compare a b = .gt) := by
      intro a b
      rcases lt_trichotomy a b with h | h | h
      · left; exact ⟨h, by unfold sign; split_ifs <;> first | rfl | linarith, compare_lt_iff_lt.2 h⟩
      · right; left; exact ⟨h, (hs a b).2 h.symm, compare_eq_iff_eq.2 h⟩
      · right; right; exact ⟨h, by unfold sign; split_ifs <;> first | rfl | linarith, compare_gt_iff_gt.2 h⟩
    rcases h1 a b with ⟨_, e1, e2⟩ | ⟨_, e1, e2⟩ | ⟨_, e1, e2⟩ <;> rcases h1 c d with ⟨_, e3, e4⟩ | ⟨_, e3, e4⟩ | ⟨_, e3, e4⟩ <;> simp [e1, e2, e3, e4]
  unfold transi
  rw [List.mem_filter, List.mem_range, decide_eq_true_eq]
  simp only [ne_eq, trans]
  have hb : ∀ P : ℚ → Prop, (∃ before : ℚ, (k = 0 → before = 0) ∧ (k ≠ 0 → before = y.getD (k - 1) 0) ∧ P before) ↔ P (if k = 0 then 0 else y.getD (k - 1) 0) := by
    intro P
    constructor
    · rintro ⟨b, h1, h2, h⟩
      by_cases hk : k = 0
      · rw [if_pos hk, ← h1 hk]; exact h
      · rw [if_neg hk, ← h2 hk]; exact h
    · intro h
      refine ⟨_, ?_, ?_, h⟩
      · intro hk; rw [if_pos hk]
      · intro hk; rw [if_neg hk]
  rw [hb]
  generalize hbv : (if k = 0 then (0 : ℚ) else y.getD (k - 1) 0) = b
  have hd : dysg y k = sign (b - y.getD k 0) := by rw [← hbv]; rfl
  have hd1 : dysg y (k + 1) = sign (y.getD k 0 - y.getD (k + 1) 0) := by simp [dysg]
  rw [hd, hd1]
  split
  · rename_i h
    rw [sub_eq_zero, hc]
    constructor
    · rintro ⟨_, h2⟩; exact .inr ⟨h, h2⟩
    · rintro (⟨h1, _⟩ | ⟨_, h2⟩)
      · omega
      · exact ⟨by omega, h2⟩
  · rename_i h
    rw [sub_zero, hs]
    constructor
    · rintro ⟨h1, h2⟩; exact .inl ⟨by omega, h2⟩
    · rintro (⟨h1, h2⟩ | ⟨h1, _⟩)
      · exact ⟨by omega, h2⟩
      · exact absurd h1 h

/-- Without a continuum it is an IndexError if the flux (in the window) does not change direction at its first pixels, as many as there are changes in all. -/
theorem edgesFlux_index (S : Sorting) (c : ℤ) (y : List ℚ) (h : ∀ k, k < (transi y).length → trans y k = 0) : edgesFlux S c y = .error .index := by
  unfold edgesFlux
  simp only
  have hp := S.perm ((transi y).map (dist c))
  cases ho : S.sort ((transi y).map (dist c)) with
  | nil => rfl
  | cons o0 o =>
    rw [ho] at hp
    have hm : ∀ k ∈ o0 :: o, trans y k = 0 := by
      intro k hk
      have := hp.mem_iff.1 hk
      exact h k (by simpa using this)
    have h0 := hm o0 (by simp)
    have hl : ((o0 :: o).filter fun k => decide (2 * (((transi y).getD k 0 : ℕ) : ℤ) < c ∧ trans y k ≠ trans y o0)) = [] := by
      rw [List.filter_eq_nil_iff]
      intro k hk
      simp [hm k hk, h0]
    simp only [hl, List.map_nil, first, pair]

/-- C195.  So for an isolated line that begins far enough from the left end of the window. -/
theorem flux_index (S : Sorting) (gauss : ℚ → List ℚ → List ℚ) (sp : Spec) (hc : sp.cont = none) (loc : ℚ) (win : Option ℚ) (wl wu : ℕ) (c : ℤ)
    (hwin : window (interp loc sp.x) sp.x.length win = (wl, wu, c)) (h : ∀ k, k < (transi (slice wl wu sp.flux)).length → trans (slice wl wu sp.flux) k = 0) :
    edges S gauss sp loc none win = .error .index := by
  unfold edges
  simp only [hwin, hc]
  rw [edgesFlux_index S c _ h]
  rfl

/-- A sorting. -/
def insertion : Sorting where
  sort l := (List.range l.length).insertionSort fun a b => l.getD a 0 ≤ l.getD b 0
  perm l := List.perm_insertionSort _ _
  sorted l := by
    rw [List.pairwise_map]
    have : Std.Total (fun a b : ℕ => l.getD a 0 ≤ l.getD b 0) := ⟨fun a b => le_total _ _⟩
    have : IsTrans ℕ (fun a b : ℕ => l.getD a 0 ≤ l.getD b 0) := ⟨fun a b c h1 h2 => le_trans h1 h2⟩
    exact List.pairwise_insertionSort _ _

def exSpec (cont : Option (List ℚ)) : Spec := ⟨[0, 1, 2, 3, 4, 5, 6, 7, 8, 9, 10], [1, 1, 1, 1, 2, 3, 4, 3, 2, 1, 1], cont⟩

def exZero : Spec := ⟨[0, 1, 2, 3, 4, 5, 6, 7, 8, 9, 10], [0, 0, 0, 0, 1, 2, 3, 2, 1, 0, 0], none⟩

/-- Cases: with a flat continuum the feature of the line at 6 is just its neighbours 5 and 7, not the zero points 3 and 9; without a continuum it is from 0 to 9, and an IndexError if the flux around the line
is zero. -/
theorem example_edges :
    edges insertion (fun _ l => l) (exSpec (some (List.replicate 11 1))) 6 none (some 6) = .ok (5, 7) ∧
    edges insertion (fun _ l => l) (exSpec none) 6 none none = .ok (0, 9) ∧
    edges insertion (fun _ l => l) exZero 6 none none = .error .index ∧
    (∀ k, k < (transi exZero.flux).length → trans exZero.flux k = 0) := by
  refine ⟨by with_unfolding_all rfl, by with_unfolding_all rfl, by with_unfolding_all rfl, by decide +kernel⟩

end Verif.SpecEdges

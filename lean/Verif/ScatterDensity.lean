import Mathlib.Data.Rat.Floor
import Mathlib.Data.List.Sort
import Mathlib.Algebra.Order.Floor.Ring
import Mathlib.Tactic.Linarith
import Mathlib.Tactic.FieldSimp
import Mathlib.Tactic.Ring
import Mathlib.Tactic.Positivity
import Mathlib.Algebra.BigOperators.Group.List.Basic

/-!
# Density scatter plots: `astropysics/plotting.py`, `scatter_density`

Which data points the plot shows as individual markers, and what the default
threshold is.  Coordinates are exact rationals.  NumPy's `histogram2d` is
modelled as documented: `b` equal bins spanning the data, half open, the last
one closed.
-/

namespace Verif.ScatterDensity

abbrev Pt := ℚ × ℚ

/-- The least / greatest coordinate (`numpy.histogram2d` called at
plotting.py:842); `0` for no data (not a case the theorems speak of). -/
def least (v : List ℚ) : ℚ := v.foldr min (v.headD 0)
def greatest (v : List ℚ) : ℚ := v.foldr max (v.headD 0)

/-- The span of the bins: the data's extent, widened by a half each side when
all values agree (numpy's rule, plotting.py:842). -/
def span (v : List ℚ) : ℚ × ℚ :=
  if least v = greatest v then (least v - 1/2, greatest v + 1/2)
  else (least v, greatest v)

/-- `xe[i]` / `ye[i]`: edge `i` of `b` equal bins (plotting.py:842). -/
def edge (v : List ℚ) (b i : ℕ) : ℚ :=
  (span v).1 + i * ((span v).2 - (span v).1) / b

/-- The bin in which numpy counts a value: half open, the last one closed
(plotting.py:842). -/
def inBin (v : List ℚ) (b i : ℕ) (a : ℚ) : Bool :=
  decide (edge v b i ≤ a) &&
    (decide (a < edge v b (i + 1)) || (decide (i + 1 = b) && decide (a = edge v b b)))

/-- `n[i,j]` (plotting.py:842-843). -/
def cell (pts : List Pt) (bx by' i j : ℕ) : ℕ :=
  pts.countP fun p =>
    inBin (pts.map Prod.fst) bx i p.1 && inBin (pts.map Prod.snd) by' j p.2

/-- All the cells' counts, flattened. -/
def counts (pts : List Pt) (bx by' : ℕ) : List ℕ :=
  (List.range bx).flatMap fun i => (List.range by').map fun j => cell pts bx by' i j

/-- `threshold` (plotting.py:845-847): the given one, or entry `size/6` of the
counts in increasing order.  Simplified: `hn.size/6` is a float (true
division is in force); it is taken as numpy of the time did, truncated. -/
def threshold (given : Option ℕ) (pts : List Pt) (bx by' : ℕ) : ℕ :=
  match given with
  | some t => t
  | none =>
    let hn := (counts pts bx by').insertionSort (· ≤ ·)
    hn.getD (hn.length / 6) 0

/-- `ms` for one point (plotting.py:858-864): strictly inside a cell whose
count is below the threshold. -/
def marked (pts : List Pt) (bx by' t : ℕ) (p : Pt) : Bool :=
  (List.range bx).any fun i => (List.range by').any fun j =>
    decide (cell pts bx by' i j < t) &&
      (decide (edge (pts.map Prod.fst) bx i < p.1) &&
       decide (p.1 < edge (pts.map Prod.fst) bx (i + 1)) &&
       decide (edge (pts.map Prod.snd) by' j < p.2) &&
       decide (p.2 < edge (pts.map Prod.snd) by' (j + 1)))

/-- The points kept by `lims` (plotting.py:837-840). -/
def limited (lims : Option (ℚ × ℚ × ℚ × ℚ)) (pts : List Pt) : List Pt :=
  match lims with
  | none => pts
  | some (xmin, xmax, ymin, ymax) =>
    pts.filter fun p => decide (xmin ≤ p.1) && decide (p.1 ≤ xmax) &&
      decide (ymin ≤ p.2) && decide (p.2 ≤ ymax)

/-- The markers `scatter_density` draws (plotting.py:888-893): nothing if no
point is marked; with `points` every (limited) point; else the marked ones. -/
def markers (lims : Option (ℚ × ℚ × ℚ × ℚ)) (given : Option ℕ) (points : Bool)
    (bx by' : ℕ) (pts : List Pt) : List Pt :=
  let q := limited lims pts
  let t := threshold given q bx by'
  let ms := q.filter (marked q bx by' t)
  if 0 < ms.length then (if points then q else ms) else []

/-! ## Edges -/

theorem least_le {v : List ℚ} {a : ℚ} (h : a ∈ v) : least v ≤ a := by
  unfold least
  generalize v.headD 0 = d
  induction v with
  | nil => simp at h
  | cons c l ih =>
    rcases List.mem_cons.1 h with h | h
    · subst h; exact min_le_left _ _
    · exact (min_le_right _ _).trans (ih h)

theorem le_greatest {v : List ℚ} {a : ℚ} (h : a ∈ v) : a ≤ greatest v := by
  unfold greatest
  generalize v.headD 0 = d
  induction v with
  | nil => simp at h
  | cons c l ih =>
    rcases List.mem_cons.1 h with h | h
    · subst h; exact le_max_left _ _
    · exact (ih h).trans (le_max_right _ _)

theorem span_lt {v : List ℚ} (hv : v ≠ []) : (span v).1 < (span v).2 := by
  unfold span
  split
  · next h => simp only [h]; linarith
  · next h =>
    obtain ⟨a, ha⟩ := List.exists_mem_of_ne_nil v hv
    exact lt_of_le_of_ne ((least_le ha).trans (le_greatest ha)) h

theorem mem_span {v : List ℚ} {a : ℚ} (h : a ∈ v) : (span v).1 ≤ a ∧ a ≤ (span v).2 := by
  have h1 := least_le h
  have h2 := le_greatest h
  unfold span
  split
  · constructor
    · simp only; linarith
    · simp only; linarith
  · exact ⟨h1, h2⟩

theorem edge_strict {v : List ℚ} (hv : v ≠ []) {b : ℕ} (hb : 0 < b) {i j : ℕ} (h : i < j) :
    edge v b i < edge v b j := by
  unfold edge
  have hs := span_lt hv
  have hb' : (0 : ℚ) < b := by exact_mod_cast hb
  have hij : (i : ℚ) < j := by exact_mod_cast h
  have : (i : ℚ) * ((span v).2 - (span v).1) / b < j * ((span v).2 - (span v).1) / b := by
    apply div_lt_div_of_pos_right _ hb'
    exact mul_lt_mul_of_pos_right hij (by linarith)
  linarith

theorem edge_mono {v : List ℚ} (hv : v ≠ []) {b : ℕ} (hb : 0 < b) {i j : ℕ} (h : i ≤ j) :
    edge v b i ≤ edge v b j := by
  rcases h.lt_or_eq with h | h
  · exact (edge_strict hv hb h).le
  · rw [h]

theorem edge_zero (v : List ℚ) (b : ℕ) : edge v b 0 = (span v).1 := by simp [edge]

theorem edge_last (v : List ℚ) {b : ℕ} (hb : 0 < b) : edge v b b = (span v).2 := by
  have hb' : (b : ℚ) ≠ 0 := by exact_mod_cast hb.ne'
  unfold edge
  rw [mul_div_assoc, mul_div_cancel₀ _ hb']; ring

theorem inBin_iff {v : List ℚ} {b i : ℕ} {a : ℚ} :
    inBin v b i a = true ↔ edge v b i ≤ a ∧
      (a < edge v b (i + 1) ∨ (i + 1 = b ∧ a = edge v b b)) := by
  simp [inBin]

/-- Strictly between two consecutive edges: that bin counts the value. -/
theorem inBin_of_strict {v : List ℚ} {b i : ℕ} {a : ℚ} (h1 : edge v b i < a)
    (h2 : a < edge v b (i + 1)) : inBin v b i a = true :=
  inBin_iff.2 ⟨h1.le, Or.inl h2⟩

theorem bin_exists {v : List ℚ} {b : ℕ} (hb : 0 < b) {a : ℚ} (ha : a ∈ v) :
    ∃ i < b, inBin v b i a = true := by
  obtain ⟨l, u⟩ := mem_span ha
  by_cases he : a = edge v b b
  · refine ⟨b - 1, by omega, inBin_iff.2 ⟨?_, Or.inr ⟨by omega, he⟩⟩⟩
    rw [he]; exact edge_mono (List.ne_nil_of_mem ha) hb (by omega)
  · have hlt : a < edge v b b := lt_of_le_of_ne (by rw [edge_last v hb]; exact u) he
    have hex : ∃ k, a < edge v b k := ⟨b, hlt⟩
    classical
    have hk := Nat.find_spec hex
    have hmin := fun m (h : m < Nat.find hex) => Nat.find_min hex h
    have hle : Nat.find hex ≤ b := Nat.find_min' hex hlt
    have hpos : Nat.find hex ≠ 0 := by
      intro h0
      rw [h0, edge_zero] at hk
      exact absurd l (not_le.2 hk)
    obtain ⟨k, hkk⟩ := Nat.exists_eq_succ_of_ne_zero hpos
    refine ⟨k, by omega, inBin_iff.2 ⟨not_lt.1 (hmin k (by omega)), Or.inl ?_⟩⟩
    rw [hkk] at hk; exact hk

theorem bin_unique {v : List ℚ} (hv : v ≠ []) {b : ℕ} {i j : ℕ} (hi : i < b)
    (hj : j < b) {a : ℚ} (h1 : inBin v b i a = true) (h2 : inBin v b j a = true) : i = j := by
  have hb : 0 < b := by omega
  rw [inBin_iff] at h1 h2
  by_contra hne
  rcases Nat.lt_or_gt_of_ne hne with h | h
  · rcases h1.2 with h' | ⟨h', _⟩
    · have := edge_mono hv hb (show i + 1 ≤ j by omega)
      linarith [h2.1]
    · omega
  · rcases h2.2 with h' | ⟨h', _⟩
    · have := edge_mono hv hb (show j + 1 ≤ i by omega)
      linarith [h1.1]
    · omega

/-! ## What is shown -/

theorem marked_iff {pts : List Pt} {bx by' t : ℕ} {p : Pt} :
    marked pts bx by' t p = true ↔ ∃ i < bx, ∃ j < by', cell pts bx by' i j < t ∧
      edge (pts.map Prod.fst) bx i < p.1 ∧ p.1 < edge (pts.map Prod.fst) bx (i + 1) ∧
      edge (pts.map Prod.snd) by' j < p.2 ∧ p.2 < edge (pts.map Prod.snd) by' (j + 1) := by
  simp [marked, and_assoc]

/-- **C218.** The grid: `b` equally wide bins from the least to the greatest value; if all values are one `a`, from `a - 1/2` to `a + 1/2`. -/
theorem grid {v : List ℚ} {b : ℕ} (hb : 0 < b) :
    (∀ i, edge v b (i + 1) - edge v b i = (edge v b b - edge v b 0) / b) ∧
    (∀ a, v ≠ [] → (∀ x ∈ v, x = a) → edge v b 0 = a - 1/2 ∧ edge v b b = a + 1/2) ∧
    ∀ a c, a ∈ v → c ∈ v → a ≠ c → edge v b 0 ∈ v ∧ edge v b b ∈ v ∧ ∀ x ∈ v, edge v b 0 ≤ x ∧ x ≤ edge v b b := by
  have lm : ∀ (w : List ℚ) (d : ℚ), (w.foldr min d = d ∨ w.foldr min d ∈ w) ∧ (w.foldr max d = d ∨ w.foldr max d ∈ w) := by
    intro w d
    induction w with
    | nil => exact ⟨Or.inl rfl, Or.inl rfl⟩
    | cons x l ih =>
      simp only [List.foldr_cons]
      constructor
      · rcases min_choice x (l.foldr min d) with h | h
        · right; rw [h]; exact List.mem_cons_self
        · rw [h]; rcases ih.1 with h' | h'
          · exact Or.inl h'
          · exact Or.inr (List.mem_cons_of_mem _ h')
      · rcases max_choice x (l.foldr max d) with h | h
        · right; rw [h]; exact List.mem_cons_self
        · rw [h]; rcases ih.2 with h' | h'
          · exact Or.inl h'
          · exact Or.inr (List.mem_cons_of_mem _ h')
  have hd : v ≠ [] → v.headD 0 ∈ v := by
    intro hv
    cases v with
    | nil => exact absurd rfl hv
    | cons x l => exact List.mem_cons_self
  have hm : v ≠ [] → least v ∈ v ∧ greatest v ∈ v := by
    intro hv
    constructor
    · rcases (lm v (v.headD 0)).1 with h | h
      · unfold least; rw [h]; exact hd hv
      · exact h
    · rcases (lm v (v.headD 0)).2 with h | h
      · unfold greatest; rw [h]; exact hd hv
      · exact h
  refine ⟨?_, ?_, ?_⟩
  · intro i
    rw [edge_zero, edge_last v hb]
    unfold edge
    push_cast
    ring
  · intro a hv ha
    rw [edge_zero, edge_last v hb]
    have h1 := ha _ (hm hv).1
    have h2 := ha _ (hm hv).2
    simp [span, h1, h2]
  · intro a c ha hc hne
    rw [edge_zero, edge_last v hb]
    have hv := List.ne_nil_of_mem ha
    have hspan : span v = (least v, greatest v) := by
      unfold span
      rw [if_neg]
      intro he
      have := least_le ha; have := le_greatest ha; have := least_le hc; have := le_greatest hc
      exact hne (by linarith)
    rw [hspan]
    exact ⟨(hm hv).1, (hm hv).2, fun x hx => ⟨least_le hx, le_greatest hx⟩⟩

/-- **C218.** Every data point is counted in exactly one cell. -/
theorem counted_once {pts : List Pt} {bx by' : ℕ} (hx : 0 < bx) (hy : 0 < by') {p : Pt}
    (hp : p ∈ pts) :
    ∃! ij : ℕ × ℕ, (ij.1 < bx ∧ ij.2 < by') ∧
      inBin (pts.map Prod.fst) bx ij.1 p.1 = true ∧
      inBin (pts.map Prod.snd) by' ij.2 p.2 = true := by
  have h1 : p.1 ∈ pts.map Prod.fst := List.mem_map_of_mem hp
  have h2 : p.2 ∈ pts.map Prod.snd := List.mem_map_of_mem hp
  obtain ⟨i, hi, hi'⟩ := bin_exists hx h1
  obtain ⟨j, hj, hj'⟩ := bin_exists hy h2
  refine ⟨(i, j), ⟨⟨hi, hj⟩, hi', hj'⟩, ?_⟩
  rintro ⟨i', j'⟩ ⟨⟨a, b⟩, c, d⟩
  exact Prod.ext (bin_unique (List.ne_nil_of_mem h1) a hi c hi')
    (bin_unique (List.ne_nil_of_mem h2) b hj d hj')

/-- **C218.** A data point counted in cell `(i, j)` gets its own marker exactly
when fewer than `t` data points are counted there and the point lies on no bin
edge in either coordinate. -/
theorem shown_iff {pts : List Pt} {bx by' t i j : ℕ} {p : Pt} (hp : p ∈ pts)
    (hi : i < bx) (hj : j < by')
    (h1 : inBin (pts.map Prod.fst) bx i p.1 = true)
    (h2 : inBin (pts.map Prod.snd) by' j p.2 = true) :
    marked pts bx by' t p = true ↔
      (pts.countP fun q => inBin (pts.map Prod.fst) bx i q.1 &&
          inBin (pts.map Prod.snd) by' j q.2) < t ∧
      (∀ k ≤ bx, p.1 ≠ edge (pts.map Prod.fst) bx k) ∧
      (∀ k ≤ by', p.2 ≠ edge (pts.map Prod.snd) by' k) := by
  have e1 : pts.map Prod.fst ≠ [] := List.ne_nil_of_mem (List.mem_map_of_mem hp)
  have e2 : pts.map Prod.snd ≠ [] := List.ne_nil_of_mem (List.mem_map_of_mem hp)
  have key : ∀ {v : List ℚ} {b k : ℕ} {a : ℚ}, v ≠ [] → k < b → edge v b k < a →
      a < edge v b (k + 1) → ∀ m ≤ b, a ≠ edge v b m := by
    intro v b k a hv hk l u m _ he
    subst he
    rcases Nat.lt_or_ge k m with h | h
    · exact absurd u (not_lt.2 (edge_mono hv (by omega) h))
    · exact absurd l (not_lt.2 (edge_mono hv (by omega) h))
  have back : ∀ {v : List ℚ} {b k : ℕ} {a : ℚ}, k < b → inBin v b k a = true →
      (∀ m ≤ b, a ≠ edge v b m) → edge v b k < a ∧ a < edge v b (k + 1) := by
    intro v b k a hk h hn
    rw [inBin_iff] at h
    refine ⟨lt_of_le_of_ne h.1 (fun e => hn k (by omega) e.symm), ?_⟩
    rcases h.2 with h' | ⟨_, h'⟩
    · exact h'
    · exact absurd h' (hn b le_rfl)
  rw [marked_iff]
  constructor
  · rintro ⟨i', hi', j', hj', c, l1, u1, l2, u2⟩
    have ei := bin_unique e1 hi' hi (inBin_of_strict l1 u1) h1
    have ej := bin_unique e2 hj' hj (inBin_of_strict l2 u2) h2
    subst ei ej
    exact ⟨c, key e1 hi l1 u1, key e2 hj l2 u2⟩
  · rintro ⟨c, n1, n2⟩
    obtain ⟨a, b⟩ := back hi h1 n1
    obtain ⟨a', b'⟩ := back hj h2 n2
    exact ⟨i, hi, j, hj, c, a, b, a', b'⟩

/-- **C218.** The leftmost, rightmost, lowest and highest points are never
marked, however sparse their cell and whatever the threshold. -/
theorem extreme_never {pts : List Pt} {bx by' t : ℕ} {p q : Pt} (hp : p ∈ pts) (hq : q ∈ pts)
    (h : (q.1 ≠ p.1 ∧ ((∀ r ∈ pts, p.1 ≤ r.1) ∨ ∀ r ∈ pts, r.1 ≤ p.1)) ∨
      (q.2 ≠ p.2 ∧ ((∀ r ∈ pts, p.2 ≤ r.2) ∨ ∀ r ∈ pts, r.2 ≤ p.2))) :
    marked pts bx by' t p = false := by
  have gen : ∀ (v : List ℚ) (b k : ℕ) (a c : ℚ), a ∈ v → c ∈ v → c ≠ a → k < b →
      ((∀ r ∈ v, a ≤ r) ∨ ∀ r ∈ v, r ≤ a) → edge v b k < a → a < edge v b (k + 1) → False := by
    intro v b k a c ha hc hne hk hr l u
    have hv := List.ne_nil_of_mem ha
    have hb : 0 < b := by omega
    have hspan : span v = (least v, greatest v) := by
      unfold span
      rw [if_neg]
      intro he
      have := least_le ha; have := le_greatest ha; have := least_le hc; have := le_greatest hc
      exact hne (by linarith)
    have lm : ∀ (w : List ℚ) (d : ℚ), w.foldr min d = d ∨ w.foldr min d ∈ w := by
      intro w d
      induction w with
      | nil => exact Or.inl rfl
      | cons x l ih =>
        simp only [List.foldr_cons]
        rcases min_choice x (l.foldr min d) with h | h
        · right; rw [h]; exact List.mem_cons_self
        · rw [h]; rcases ih with h' | h'
          · exact Or.inl h'
          · exact Or.inr (List.mem_cons_of_mem _ h')
    have gm : ∀ (w : List ℚ) (d : ℚ), w.foldr max d = d ∨ w.foldr max d ∈ w := by
      intro w d
      induction w with
      | nil => exact Or.inl rfl
      | cons x l ih =>
        simp only [List.foldr_cons]
        rcases max_choice x (l.foldr max d) with h | h
        · right; rw [h]; exact List.mem_cons_self
        · rw [h]; rcases ih with h' | h'
          · exact Or.inl h'
          · exact Or.inr (List.mem_cons_of_mem _ h')
    have hd : v.headD 0 ∈ v := by cases v with
      | nil => exact absurd rfl hv
      | cons x l => exact List.mem_cons_self
    have l0 : edge v b 0 = least v := by rw [edge_zero, hspan]
    have lb : edge v b b = greatest v := by rw [edge_last v hb, hspan]
    have m0 := edge_mono hv hb (Nat.zero_le k)
    have mb := edge_mono hv hb (show k + 1 ≤ b by omega)
    rw [l0] at m0; rw [lb] at mb
    rcases hr with hr | hr
    · have : a ≤ least v := by
        rcases lm v (v.headD 0) with h | h
        · unfold least; rw [h]; exact hr _ hd
        · exact hr _ h
      linarith
    · have : greatest v ≤ a := by
        rcases gm v (v.headD 0) with h | h
        · unfold greatest; rw [h]; exact hr _ hd
        · exact hr _ h
      linarith
  rw [Bool.eq_false_iff]
  intro hm
  rw [marked_iff] at hm
  obtain ⟨i, hi, j, hj, _, l1, u1, l2, u2⟩ := hm
  rcases h with ⟨hne, hr⟩ | ⟨hne, hr⟩
  · refine gen (pts.map Prod.fst) bx i p.1 q.1 (List.mem_map_of_mem hp) (List.mem_map_of_mem hq)
      hne hi ?_ l1 u1
    simpa using hr
  · refine gen (pts.map Prod.snd) by' j p.2 q.2 (List.mem_map_of_mem hp) (List.mem_map_of_mem hq)
      hne hj ?_ l2 u2
    rcases hr with hr | hr
    · left; intro r hr'; obtain ⟨z, hz, rfl⟩ := List.mem_map.1 hr'; exact hr z hz
    · right; intro r hr'; obtain ⟨z, hz, rfl⟩ := List.mem_map.1 hr'; exact hr z hz

/-- **C218.** What is drawn: nothing when no point qualifies; otherwise, in
data order, the qualifying points — or, with `points`, every point within the
limits. -/
theorem drawn (lims : Option (ℚ × ℚ × ℚ × ℚ)) (given : Option ℕ) (points : Bool)
    (bx by' : ℕ) (pts : List Pt) :
    ((∀ p ∈ limited lims pts, marked (limited lims pts) bx by'
        (threshold given (limited lims pts) bx by') p = false) →
      markers lims given points bx by' pts = []) ∧
    ((∃ p ∈ limited lims pts, marked (limited lims pts) bx by'
        (threshold given (limited lims pts) bx by') p = true) →
      markers lims given points bx by' pts =
        if points = true then limited lims pts
        else (limited lims pts).filter (marked (limited lims pts) bx by'
          (threshold given (limited lims pts) bx by'))) := by
  constructor
  · intro h
    have : (limited lims pts).filter (marked (limited lims pts) bx by'
        (threshold given (limited lims pts) bx by')) = [] := by
      rw [List.filter_eq_nil_iff]
      intro p hp; rw [h p hp]; simp
    simp [markers, this]
  · rintro ⟨p, hp, hm⟩
    have : 0 < ((limited lims pts).filter (marked (limited lims pts) bx by'
        (threshold given (limited lims pts) bx by'))).length :=
      List.length_pos_of_mem (List.mem_filter.2 ⟨hp, hm⟩)
    simp [markers, this]

/-- **C218.** Points outside the limits are neither drawn nor counted; those on
the limits are kept. -/
theorem limits (xmin xmax ymin ymax : ℚ) (pts : List Pt) (p : Pt) :
    p ∈ limited (some (xmin, xmax, ymin, ymax)) pts ↔
      p ∈ pts ∧ xmin ≤ p.1 ∧ p.1 ≤ xmax ∧ ymin ≤ p.2 ∧ p.2 ≤ ymax := by
  simp [limited, and_assoc]

theorem no_limits (pts : List Pt) : limited none pts = pts := rfl

/-! ## The default threshold -/

theorem counts_length (pts : List Pt) (bx by' : ℕ) :
    (counts pts bx by').length = bx * by' := by
  simp [counts, List.length_flatMap]

/-- **C218.** A given threshold is used as it is; by default at most a sixth of
the cells fall below the threshold (not the half the documentation says), and it
is the count of some cell. -/
theorem default_threshold (pts : List Pt) (bx by' : ℕ) :
    (∀ t, threshold (some t) pts bx by' = t) ∧
    (counts pts bx by').countP (fun c => decide (c < threshold none pts bx by')) ≤ bx * by' / 6 ∧
    (0 < bx → 0 < by' → threshold none pts bx by' ∈ counts pts bx by' ∧
      bx * by' / 6 < (counts pts bx by').countP
        (fun c => decide (c ≤ threshold none pts bx by'))) := by
  refine ⟨fun _ => rfl, ?_⟩
  set cs := counts pts bx by' with hcs
  have hperm := List.perm_insertionSort (· ≤ ·) cs
  have hlen := hperm.length_eq
  have hl := counts_length pts bx by'
  rw [← hcs] at hl
  have hsort : (cs.insertionSort (· ≤ ·)).Pairwise (· ≤ ·) := by
    exact List.pairwise_insertionSort (· ≤ ·) cs
  have hthr : threshold none pts bx by' =
      (cs.insertionSort (· ≤ ·)).getD (bx * by' / 6) 0 := by
    simp only [threshold]
    rw [← hcs, hlen, hl]
  set hn := cs.insertionSort (· ≤ ·) with hhn
  rw [hl] at hlen
  set k := bx * by' / 6 with hk
  have hmono : ∀ i j, (hij : i ≤ j) → (hj : j < hn.length) → hn[i]'(by omega) ≤ hn[j] := by
    intro i j hij hj
    rcases Nat.lt_or_ge i j with h | h
    · exact List.pairwise_iff_getElem.1 hsort i j (by omega) hj h
    · have : i = j := by omega
      subst this; exact le_rfl
  rcases Nat.eq_zero_or_pos (bx * by') with h0 | hpos
  · have hnil : cs = [] := List.length_eq_zero_iff.1 (by omega)
    refine ⟨by simp [hnil], ?_⟩
    intro a b
    exact absurd h0 (Nat.mul_pos a b).ne'
  · have hkl : k < hn.length := by omega
    have hthr' : threshold none pts bx by' = hn[k] := by
      rw [hthr, List.getD_eq_getElem?_getD, List.getElem?_eq_getElem hkl, Option.getD_some]
    refine ⟨?_, fun _ _ => ⟨?_, ?_⟩⟩
    · rw [← hperm.countP_eq, hthr']
      have hap : hn.countP (fun c => decide (c < hn[k])) =
          (hn.take k).countP (fun c => decide (c < hn[k])) +
          (hn.drop k).countP (fun c => decide (c < hn[k])) := by
        rw [← List.countP_append, List.take_append_drop]
      have hz : (hn.drop k).countP (fun c => decide (c < hn[k])) = 0 := by
        rw [List.countP_eq_zero]
        intro c hc
        obtain ⟨m, hm, rfl⟩ := List.getElem_of_mem hc
        simp only [List.getElem_drop, decide_eq_true_eq, not_lt]
        simp only [List.length_drop] at hm
        exact hmono k (k + m) (by omega) (by omega)
      have h1 : (hn.take k).countP (fun c => decide (c < hn[k])) ≤ k :=
        List.countP_le_length.trans (by simp)
      omega
    · rw [hthr']
      exact hperm.mem_iff.1 (List.getElem_mem hkl)
    · rw [← hperm.countP_eq, hthr']
      have h2 : (hn.take (k+1)).countP (fun c => decide (c ≤ hn[k])) = k + 1 := by
        rw [List.countP_eq_length.2]
        · simp; omega
        · intro c hc
          obtain ⟨m, hm, rfl⟩ := List.getElem_of_mem hc
          simp only [List.length_take] at hm
          simp only [List.getElem_take, decide_eq_true_eq]
          exact hmono m k (by omega) hkl
      have h3 : (hn.take (k+1)).countP (fun c => decide (c ≤ hn[k])) ≤
          hn.countP (fun c => decide (c ≤ hn[k])) :=
        (List.take_sublist _ _).countP_le
      omega

theorem mem_counts {pts : List Pt} {bx by' i j : ℕ} (hi : i < bx) (hj : j < by') :
    cell pts bx by' i j ∈ counts pts bx by' := by
  simp only [counts, List.mem_flatMap, List.mem_range, List.mem_map]
  exact ⟨i, hi, j, hj, rfl⟩

/-- **C218.** With the default threshold, once more than a sixth of the cells
are empty, no point at all is drawn. -/
theorem sparse_shows_nothing (lims : Option (ℚ × ℚ × ℚ × ℚ)) (points : Bool) (bx by' : ℕ)
    (pts : List Pt)
    (h : bx * by' / 6 < (counts (limited lims pts) bx by').countP (fun c => decide (c = 0))) :
    markers lims none points bx by' pts = [] := by
  apply (drawn lims none points bx by' pts).1
  intro p _
  have hd := (default_threshold (limited lims pts) bx by').2.1
  have h0 : threshold none (limited lims pts) bx by' = 0 := by
    by_contra hne
    have : (counts (limited lims pts) bx by').countP (fun c => decide (c = 0)) ≤
        (counts (limited lims pts) bx by').countP
          (fun c => decide (c < threshold none (limited lims pts) bx by')) := by
      apply List.countP_mono_left
      intro c _ hc
      simp only [decide_eq_true_eq] at hc ⊢
      omega
    omega
  rw [h0, Bool.eq_false_iff]
  intro hm
  rw [marked_iff] at hm
  obtain ⟨_, _, _, _, c, _⟩ := hm
  omega

/-! ## Concrete cases -/

/-- Three points on a diagonal, two bins a side, all cells sparse: none of the
three is shown — the two ends are extreme and the middle one is on an edge. -/
example : markers none (some 5) false 2 2 [(0, 0), (1, 1), (2, 2)] = [] := by decide +kernel

/-- Five points: the two inner ones off the edges are shown. -/
example : markers none (some 5) false 2 2 [(0, 0), (1/2, 1/2), (2, 2), (3/2, 1/3), (1, 1)] =
    [(1/2, 1/2), (3/2, 1/3)] := by decide +kernel

/-- A crowded cell's points are not. -/
example : markers none (some 2) false 2 2 [(0, 0), (1/2, 1/2), (2, 2), (3/2, 1/3), (1, 1)] =
    [(3/2, 1/3)] := by decide +kernel

/-- `points` draws everything. -/
example : markers (some (0, 2, 0, 2)) (some 2) true 2 2
    [(0, 0), (1/2, 1/2), (2, 2), (3/2, 1/3), (1, 1), (9, 9)] =
    [(0, 0), (1/2, 1/2), (2, 2), (3/2, 1/3), (1, 1)] := by decide +kernel

/-- The default threshold on a 3 by 3 grid with empty cells. -/
example : (counts [(0, 0), (1/2, 1/2), (3, 3)] 3 3).countP (fun c => decide (c = 0)) = 7 := by
  decide +kernel

/-- No cell empty on a 2 by 3 grid: the default threshold is the second smallest count, and the point in the sparsest cell is drawn. -/
example : threshold none [(0, 0), (1/4, 1/2), (3/4, 1/3), (1/3, 3/2), (1/3, 4/3), (1/4, 5/2), (1/2, 7/3), (3/2, 1/2), (5/4, 1/3), (3/2, 3/2), (2, 3), (3/2, 5/2)] 2 3 = 2 ∧
    markers none none false 2 3 [(0, 0), (1/4, 1/2), (3/4, 1/3), (1/3, 3/2), (1/3, 4/3), (1/4, 5/2), (1/2, 7/3), (3/2, 1/2), (5/4, 1/3), (3/2, 3/2), (2, 3), (3/2, 5/2)] =
      [(3/2, 3/2)] := by decide +kernel

end Verif.ScatterDensity

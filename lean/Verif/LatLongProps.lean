import Verif.LatLong
import Verif.AngleProps
import Mathlib.Geometry.Euclidean.Angle.Unoriented.TriangleInequality
import Mathlib.Analysis.InnerProductSpace.PiL2
import Mathlib.LinearAlgebra.UnitaryGroup

/-!
# Latitudes, longitudes, separations and rotations (C27, C51, C52, C53)
-/

namespace Verif.LatLong

noncomputable section

open Real Verif.Angle

/-! ## C27: assignment -/

/-- The longitude ranges of the classes of the package: none, or a wrapping range of one full turn. -/
def FullTurn (r : Option Range) : Prop :=
  r = none ∨ ∃ r', r = some r' ∧ r'.up = r'.low + 2 * π ∧ r'.cycle = some 0

/-- A coordinate object as the constructor makes it. -/
structure WF (c : LL) : Prop where
  lat : c.lat.range = some latRange
  latMem : -(π / 2) ≤ c.lat.val ∧ c.lat.val ≤ π / 2
  long : FullTurn c.long.range

theorem two_pi_pos : 0 < 2 * π := by have := Real.pi_pos; positivity

/-- The ranges used in the package: None, (0, 360) and (−180, 180) degrees. -/
example : FullTurn none ∧ FullTurn (some ⟨rad 0, rad 360, (some 0)⟩) ∧ FullTurn (some ⟨rad (-180), rad 180, some 0⟩) := by
  refine ⟨Or.inl rfl, Or.inr ⟨_, rfl, ?_, rfl⟩, Or.inr ⟨_, rfl, ?_, rfl⟩⟩ <;> simp only [rad] <;> ring

theorem setRadians_lat {a : AC} (h : a.range = some latRange) {x : ℝ} (h0 : -(π / 2) ≤ x) (h1 : x ≤ π / 2) :
    setRadians a x = ({ a with val := x }, none) := by
  have hp := Real.pi_pos
  apply assigned_in_range_kept h h0 h1
  refine Or.inr (Or.inr ⟨?_, ?_⟩)
  · simp only [latRange]; congr 1; ring
  · simp only [latRange]; linarith

/-- Folding an angle in [0,2π) as `_setLat` does keeps the sine and lands in [−π/2, π/2]. -/
theorem fold_spec {r : ℝ} (h0 : 0 ≤ r) (h1 : r < 2 * π) :
    let f := (if r > 3 * π / 2 then r - 2 * π else if r > π / 2 then π - r else r);
    -(π / 2) ≤ f ∧ f ≤ π / 2 ∧ sin f = sin r := by
  have hp := Real.pi_pos
  dsimp only
  split
  · exact ⟨by linarith, by linarith, sin_sub_two_pi r⟩
  · split
    · exact ⟨by linarith, by linarith, sin_pi_sub r⟩
    · exact ⟨by linarith, by linarith, rfl⟩

theorem sin_pymod (x : ℝ) : sin (pymod x (2 * π)) = sin x := by
  unfold pymod
  rw [show x - 2 * π * (⌊x / (2 * π)⌋ : ℝ) = x + ((-⌊x / (2 * π)⌋ : ℤ) : ℝ) * (2 * π) by push_cast; ring]
  exact sin_add_int_mul_two_pi _ _

theorem cos_pymod (x : ℝ) : cos (pymod x (2 * π)) = cos x := by
  unfold pymod
  rw [show x - 2 * π * (⌊x / (2 * π)⌋ : ℝ) = x + ((-⌊x / (2 * π)⌋ : ℤ) : ℝ) * (2 * π) by push_cast; ring]
  exact cos_add_int_mul_two_pi _ _

/-- C27: assigning any angle as latitude stores a latitude between −90° and 90° with the sine of the assigned angle. -/
theorem setLat_spec {c : LL} (h : c.lat.range = some latRange) (x : ℝ) :
    -(π / 2) ≤ (setLat c x).lat.val ∧ (setLat c x).lat.val ≤ π / 2 ∧ sin (setLat c x).lat.val = sin x := by
  have hf := fold_spec (pymod_nonneg (x := x) two_pi_pos) (pymod_lt two_pi_pos)
  dsimp only at hf
  unfold setLat
  dsimp only
  rw [setRadians_lat h hf.1 hf.2.1]
  exact ⟨hf.1, hf.2.1, hf.2.2.trans (sin_pymod x)⟩

/-- C27: a latitude between −90° and 90° is stored as it is. -/
theorem setLat_id {c : LL} (h : c.lat.range = some latRange) {x : ℝ} (h0 : -(π / 2) ≤ x) (h1 : x ≤ π / 2) :
    (setLat c x).lat.val = x := by
  obtain ⟨a, b, e⟩ := setLat_spec h x
  exact injOn_sin ⟨a, b⟩ ⟨h0, h1⟩ e

/-- C27: assigning a longitude never fails and stores an angle equal to it up to full turns, inside the class's range, or in
[0, 2π) if the class has none. -/
theorem setLong_spec {c : LL} (h : FullTurn c.long.range) (x : ℝ) :
    (∃ n : ℤ, (setLong c x).long.val = x + n * (2 * π)) ∧
    (c.long.range = none → 0 ≤ (setLong c x).long.val ∧ (setLong c x).long.val < 2 * π) ∧
    (∀ r, c.long.range = some r → r.low ≤ (setLong c x).long.val ∧ (setLong c x).long.val < r.up) := by
  have hm : pymod x (2 * π) = x + ((-⌊x / (2 * π)⌋ : ℤ) : ℝ) * (2 * π) := by unfold pymod; push_cast; ring
  rcases h with h | ⟨r, h, hw, hc⟩
  · have e : (setLong c x).long.val = pymod x (2 * π) := by simp [setLong, setRadians, checkRange, h]
    refine ⟨⟨_, e.trans hm⟩, fun _ => ?_, fun r hr => by rw [h] at hr; cases hr⟩
    rw [e]; exact ⟨pymod_nonneg two_pi_pos, pymod_lt two_pi_pos⟩
  · obtain ⟨_, ⟨n, hn⟩, h0, h1⟩ := wrap_congruent h hc le_rfl (by have := two_pi_pos; linarith) (pymod x (2 * π))
    refine ⟨⟨n - ⌊x / (2 * π)⌋, ?_⟩, (fun hn => by rw [h] at hn; cases hn), (fun r' hr => ?_)⟩
    · unfold setLong
      rw [hn, hm, show r.up - r.low = 2 * π by linarith]
      push_cast; ring
    · rw [h] at hr; cases hr
      exact ⟨h0, h1⟩

theorem setLat_wf {c : LL} (h : WF c) (x : ℝ) : WF (setLat c x) := by
  obtain ⟨a, b, -⟩ := setLat_spec h.lat x
  exact ⟨by rw [← h.lat]; exact setRadians_range _ _, ⟨a, b⟩, h.long⟩

theorem setLong_wf {c : LL} (h : WF c) (x : ℝ) : WF (setLong c x) :=
  ⟨h.lat, h.latMem, by have := h.long; unfold setLong; rwa [setRadians_range]⟩

theorem fresh_wf {r : Option Range} (h : FullTurn r) : WF (fresh r) := by
  have := Real.pi_pos
  exact ⟨rfl, ⟨by simp only [fresh]; linarith, by simp only [fresh]; linarith⟩, h⟩

/-- The calls that change a coordinate. -/
inductive Op
  | lat (x : ℝ)
  | long (x : ℝ)
  | rotate (m : Matrix (Fin 3) (Fin 3) ℝ)

def step (c : LL) : Op → LL
  | .lat x => setLat c x
  | .long x => setLong c x
  | .rotate m => matrixRotate c m

theorem setRadians_lat_mem {a : AC} (h : a.range = some latRange) (x : ℝ) :
    -(π / 2) ≤ (setRadians a x).1.val ∧ (setRadians a x).1.val ≤ π / 2 := by
  have hp := Real.pi_pos
  have hle : -(π / 2) ≤ π / 2 := by linarith
  have hne : ¬ -(π / 2) - π / 2 = 0 := by linarith
  have e : setRadians a x = ({ a with val := triangle (-(π / 2)) (π / 2) (2 * π) x }, none) := by
    simp [setRadians, h, checkRange, latRange, hp, hne]
  rw [e]; exact triangle_mem hle

theorem matrixRotate_wf {c : LL} (h : WF c) (m : Matrix (Fin 3) (Fin 3) ℝ) : WF (matrixRotate c m) := by
  refine ⟨?_, ?_, ?_⟩
  · rw [← h.lat]; exact setRadians_range _ _
  · exact setRadians_lat_mem h.lat _
  · have := h.long; unfold matrixRotate; rwa [setRadians_range]

/-- C27, for histories: starting from any constructor call, whatever latitudes and longitudes are assigned and matrices applied (rotations
or not), the latitude stays within ±90°. -/
theorem latitude_always_in_range {r : Option Range} (h : FullTurn r) (lo la : ℝ) (ops : List Op) :
    WF (ops.foldl step (construct r lo la)) := by
  have h0 : WF (construct r lo la) := setLong_wf (setLat_wf (fresh_wf h) _) _
  generalize construct r lo la = c at h0
  induction ops generalizing c with
  | nil => exact h0
  | cons op ops ih =>
    apply ih
    cases op with
    | lat x => exact setLat_wf h0 x
    | long x => exact setLong_wf h0 x
    | rotate m => exact matrixRotate_wf h0 m

/-! ## Directions -/

/-- The unit vector a coordinate denotes. -/
def dir (c : LL) : EuclideanSpace ℝ (Fin 3) :=
  WithLp.toLp 2 ![cos c.lat.val * cos c.long.val, cos c.lat.val * sin c.long.val, sin c.lat.val]

/-- C27: a new coordinate points where its longitude and latitude say, whatever the longitude and the class's longitude range. -/
theorem construct_dir {r : Option Range} (h : FullTurn r) (lo la : ℝ) (h0 : -(π / 2) ≤ la) (h1 : la ≤ π / 2) :
    (construct r lo la).lat.val = la ∧ (∃ n : ℤ, (construct r lo la).long.val = lo + n * (2 * π)) ∧
    dir (construct r lo la) = WithLp.toLp 2 ![cos la * cos lo, cos la * sin lo, sin la] := by
  have e1 : (construct r lo la).lat.val = la := setLat_id (c := fresh r) rfl h0 h1
  obtain ⟨n, e2⟩ := (setLong_spec (c := setLat (fresh r) la) h lo).1
  refine ⟨e1, ⟨n, e2⟩, ?_⟩
  unfold dir
  have e2' : (construct r lo la).long.val = lo + n * (2 * π) := e2
  rw [e1, e2', cos_add_int_mul_two_pi, sin_add_int_mul_two_pi]

theorem inner_dir (p q : LL) : inner ℝ (dir p) (dir q) =
    cos p.lat.val * cos q.lat.val * cos (q.long.val - p.long.val) + sin p.lat.val * sin q.lat.val := by
  simp only [dir, PiLp.inner_apply, Fin.sum_univ_three, cos_sub]
  simp
  ring

theorem norm_dir (p : LL) : ‖dir p‖ = 1 := by
  have h : inner ℝ (dir p) (dir p) = 1 := by
    rw [inner_dir]; simp; have := sin_sq_add_cos_sq p.lat.val; linarith
  rw [real_inner_self_eq_norm_sq] at h
  have h0 := norm_nonneg (dir p)
  nlinarith

/-! ## C51: separations -/

theorem haversin_eq (t : ℝ) : haversin t = (1 - cos t) / 2 := by
  unfold haversin
  split
  · rfl
  · rw [sin_sq_eq_half_sub]; rw [show 2 * (t / 2) = t by ring]; ring

theorem two_arcsin_sqrt {h : ℝ} (h0 : 0 ≤ h) (h1 : h ≤ 1) : 2 * arcsin (√h) = arccos (1 - 2 * h) := by
  have hs0 : 0 ≤ √h := sqrt_nonneg h
  have hs1 : √h ≤ 1 := by exact Real.sqrt_le_one.2 h1
  have a0 : 0 ≤ arcsin (√h) := arcsin_nonneg.2 hs0
  have a1 := arcsin_le_pi_div_two (√h)
  rw [← arccos_cos (x := 2 * arcsin (√h)) (by linarith) (by linarith)]
  congr 1
  rw [cos_two_mul, cos_sq', sin_arcsin (by linarith) hs1, sq_sqrt h0]
  ring

theorem havsep_eq (p q : LL) :
    haversin |q.lat.val - p.lat.val| + cos p.lat.val * cos q.lat.val * haversin |q.long.val - p.long.val| =
      (1 - inner ℝ (dir p) (dir q)) / 2 := by
  rw [haversin_eq, haversin_eq, cos_abs, cos_abs, inner_dir, cos_sub q.lat.val]
  ring

theorem inner_bounds (p q : LL) : -1 ≤ inner ℝ (dir p) (dir q) ∧ inner ℝ (dir p) (dir q) ≤ 1 := by
  have := abs_real_inner_le_norm (dir p) (dir q)
  rw [norm_dir, norm_dir, one_mul, abs_le] at this
  exact this

/-- C51: the separation of two coordinates is the angle between the directions they denote. -/
theorem separation_eq_angle (p q : LL) : sub p q = InnerProductGeometry.angle (dir p) (dir q) := by
  have hb := inner_bounds p q
  unfold sub
  dsimp only
  rw [havsep_eq]
  have e : arccos (1 - 2 * ((1 - inner ℝ (dir p) (dir q)) / 2)) = InnerProductGeometry.angle (dir p) (dir q) := by
    unfold InnerProductGeometry.angle
    rw [norm_dir, norm_dir]; congr 1; ring
  split
  · exact e
  · rw [two_arcsin_sqrt (by linarith) (by linarith), e]

/-- C51: separations are symmetric, between 0 and π, obey the triangle inequality, and vanish exactly for coordinates that denote the same
direction. -/
theorem separation_metric (p q r : LL) :
    sub p q = sub q p ∧ 0 ≤ sub p q ∧ sub p q ≤ π ∧ sub p r ≤ sub p q + sub q r ∧ (sub p q = 0 ↔ dir p = dir q) := by
  simp only [separation_eq_angle]
  refine ⟨InnerProductGeometry.angle_comm _ _, InnerProductGeometry.angle_nonneg _ _, InnerProductGeometry.angle_le_pi _ _,
    InnerProductGeometry.angle_le_angle_add_angle _ _ _, ?_⟩
  unfold InnerProductGeometry.angle
  rw [norm_dir, norm_dir, one_mul, div_one, arccos_eq_zero]
  constructor
  · intro h
    have := le_antisymm (inner_bounds p q).2 h
    exact (inner_eq_one_iff_of_norm_eq_one (𝕜 := ℝ) (norm_dir p) (norm_dir q)).1 this
  · rintro h
    rw [h, real_inner_self_eq_norm_sq, norm_dir]; norm_num

/-- Along a meridian the separation is the difference of the latitudes. -/
theorem separation_meridian (p q : LL) (hp : -(π / 2) ≤ p.lat.val ∧ p.lat.val ≤ π / 2) (hq : -(π / 2) ≤ q.lat.val ∧ q.lat.val ≤ π / 2)
    (h : p.long.val = q.long.val) : sub p q = |q.lat.val - p.lat.val| := by
  rw [separation_eq_angle]
  unfold InnerProductGeometry.angle
  rw [norm_dir, norm_dir, inner_dir, h, sub_self, cos_zero, mul_one, one_mul, div_one, mul_comm (cos p.lat.val), mul_comm (sin p.lat.val),
    ← cos_sub, ← cos_abs, arccos_cos (abs_nonneg _)]
  rw [abs_le]; constructor <;> linarith [hp.1, hp.2, hq.1, hq.2]

/-! ## C52: rotations -/

/-- What a 3×3 matrix does to vectors. -/
def act (m : Matrix (Fin 3) (Fin 3) ℝ) (v : EuclideanSpace ℝ (Fin 3)) : EuclideanSpace ℝ (Fin 3) :=
  WithLp.toLp 2 (m.mulVec (WithLp.ofLp v))

theorem act_act (m n : Matrix (Fin 3) (Fin 3) ℝ) (v : EuclideanSpace ℝ (Fin 3)) : act m (act n v) = act (m * n) v := by
  simp [act, Matrix.mulVec_mulVec]

theorem inner_act {m : Matrix (Fin 3) (Fin 3) ℝ} (hm : m ∈ Matrix.orthogonalGroup (Fin 3) ℝ) (v w : EuclideanSpace ℝ (Fin 3)) :
    inner ℝ (act m v) (act m w) = inner ℝ v w := by
  rw [Matrix.mem_orthogonalGroup_iff'] at hm
  have key : ∀ a b : Fin 3 → ℝ, inner ℝ (WithLp.toLp 2 a : EuclideanSpace ℝ (Fin 3)) (WithLp.toLp 2 b) = dotProduct b a := by
    intro a b
    simp [PiLp.inner_apply, dotProduct]
  have key2 : ∀ a b : Fin 3 → ℝ, dotProduct (m.mulVec a) (m.mulVec b) = dotProduct a b := by
    intro a b
    rw [Matrix.dotProduct_mulVec, ← Matrix.mulVec_transpose, Matrix.mulVec_mulVec, hm, Matrix.one_mulVec]
  unfold act
  rw [key, key2, ← key]

theorem norm_act {m : Matrix (Fin 3) (Fin 3) ℝ} (hm : m ∈ Matrix.orthogonalGroup (Fin 3) ℝ) (v : EuclideanSpace ℝ (Fin 3)) :
    ‖act m v‖ = ‖v‖ := by
  have := inner_act hm v v
  rw [real_inner_self_eq_norm_sq, real_inner_self_eq_norm_sq] at this
  exact (sq_eq_sq₀ (norm_nonneg _) (norm_nonneg _)).1 this

theorem fixrange_id {l : ℝ} (h0 : -(π / 2) ≤ l) (h1 : l ≤ π / 2) :
    2 * π * |(l + π / 2) / (2 * π) - ⌊(l + π / 2) / (2 * π) + 1/2⌋| - π / 2 = l := by
  have hp := Real.pi_pos
  set ao := (l + π / 2) / (2 * π) with hao
  have e : ao * (2 * π) = l + π / 2 := by rw [hao]; field_simp
  have a0 : 0 ≤ ao := div_nonneg (by linarith) (by linarith)
  have a1 : ao ≤ 1/2 := by rw [hao, div_le_iff₀ (by linarith)]; linarith
  rcases a1.lt_or_eq with a1 | a1
  · have : ⌊ao + 1/2⌋ = 0 := by rw [Int.floor_eq_iff]; constructor <;> push_cast <;> linarith
    rw [this]; push_cast; rw [sub_zero, abs_of_nonneg a0]; linarith
  · have : ⌊ao + 1/2⌋ = 1 := by rw [a1]; norm_num
    rw [this, a1]; rw [a1] at e
    norm_num [abs_of_neg]; linarith

/-- `(latp, longp)` are the spherical coordinates of the rotated vector. -/
theorem rotated_spec (m : Matrix (Fin 3) (Fin 3) ℝ) (lat long : ℝ)
    (h : m.mulVec (cart lat long) 0 ^ 2 + m.mulVec (cart lat long) 1 ^ 2 + m.mulVec (cart lat long) 2 ^ 2 = 1) :
    -(π / 2) ≤ (rotated m lat long).1 ∧ (rotated m lat long).1 ≤ π / 2 ∧
    0 ≤ (rotated m lat long).2 ∧ (rotated m lat long).2 < 2 * π ∧
    cart (rotated m lat long).1 (rotated m lat long).2 = m.mulVec (cart lat long) := by
  set x := m.mulVec (cart lat long) 0 with hx
  set y := m.mulVec (cart lat long) 1 with hy
  set z := m.mulVec (cart lat long) 2 with hz
  set sp := √(x * x + y * y) with hsp
  have hsp0 : 0 ≤ sp := sqrt_nonneg _
  have hsp2 : sp ^ 2 = x * x + y * y := sq_sqrt (by nlinarith [sq_nonneg x, sq_nonneg y])
  have hn : ‖(⟨sp, z⟩ : ℂ)‖ = 1 := by
    rw [Complex.norm_def, Complex.normSq_mk]
    rw [show sp * sp + z * z = 1 by nlinarith]; simp
  have hne : (⟨sp, z⟩ : ℂ) ≠ 0 := by intro h; rw [h] at hn; simp at hn
  have clat : cos (atan2 z sp) = sp := by unfold atan2; rw [Complex.cos_arg hne, hn]; simp
  have slat : sin (atan2 z sp) = z := by unfold atan2; rw [Complex.sin_arg, hn]; simp
  have hl : |atan2 z sp| ≤ π / 2 := by unfold atan2; rw [Complex.abs_arg_le_pi_div_two_iff]; exact hsp0
  rw [abs_le] at hl
  have hnl : ‖(⟨x, y⟩ : ℂ)‖ = sp := by rw [Complex.norm_def, Complex.normSq_mk]
  have clong : sp * cos (atan2 y x) = x := by
    unfold atan2
    by_cases h0 : (⟨x, y⟩ : ℂ) = 0
    · rw [h0] at hnl
      have h1 : x = 0 := congrArg Complex.re h0
      rw [← hnl, h1]; simp
    · rw [Complex.cos_arg h0, hnl]
      have : sp ≠ 0 := by rw [← hnl]; exact norm_ne_zero_iff.2 h0
      field_simp
  have slong : sp * sin (atan2 y x) = y := by
    unfold atan2
    by_cases h0 : (⟨x, y⟩ : ℂ) = 0
    · rw [h0] at hnl
      have h1 : y = 0 := congrArg Complex.im h0
      rw [← hnl, h1]; simp
    · rw [Complex.sin_arg, hnl]
      have : sp ≠ 0 := by rw [← hnl]; exact norm_ne_zero_iff.2 h0
      field_simp
  have e : rotated m lat long = (atan2 z sp, pymod (atan2 y x) (2 * π)) := by
    simp only [rotated, ← hx, ← hy, ← hz, ← hsp]
    rw [fixrange_id hl.1 hl.2]
  rw [e]
  refine ⟨hl.1, hl.2, pymod_nonneg two_pi_pos, pymod_lt two_pi_pos, ?_⟩
  funext i
  simp only [cart, clat, slat, cos_pymod, sin_pymod, clong, slong]
  fin_cases i <;> simp [hx, hy, hz, cart]

theorem dir_eq_cart (c : LL) : WithLp.ofLp (dir c) = cart c.lat.val c.long.val := rfl

/-- C52: applying an orthogonal matrix to a coordinate turns the direction it denotes by that matrix. -/
theorem matrixRotate_dir {c : LL} (h : WF c) {m : Matrix (Fin 3) (Fin 3) ℝ} (hm : m ∈ Matrix.orthogonalGroup (Fin 3) ℝ) :
    dir (matrixRotate c m) = act m (dir c) := by
  have hn : ‖act m (dir c)‖ = 1 := by rw [norm_act hm, norm_dir]
  have hs : m.mulVec (cart c.lat.val c.long.val) 0 ^ 2 + m.mulVec (cart c.lat.val c.long.val) 1 ^ 2
      + m.mulVec (cart c.lat.val c.long.val) 2 ^ 2 = 1 := by
    rw [EuclideanSpace.norm_eq, Real.sqrt_eq_one] at hn
    simpa [act, dir_eq_cart, Fin.sum_univ_three, sq_abs] using hn
  obtain ⟨h0, h1, -, -, hc⟩ := rotated_spec m c.lat.val c.long.val hs
  have elat : (matrixRotate c m).lat.val = (rotated m c.lat.val c.long.val).1 := by
    unfold matrixRotate; dsimp only; rw [setRadians_lat h.lat h0 h1]
  have elong : ∃ n : ℤ, (matrixRotate c m).long.val = (rotated m c.lat.val c.long.val).2 + n * (2 * π) := by
    rcases h.long with hl | ⟨r, hl, hw, hcy⟩
    · refine ⟨0, ?_⟩
      simp [matrixRotate, setRadians, checkRange, hl]
    · obtain ⟨_, ⟨n, hn⟩, -, -⟩ := wrap_congruent hl hcy le_rfl (by have := two_pi_pos; linarith) (rotated m c.lat.val c.long.val).2
      refine ⟨n, ?_⟩
      unfold matrixRotate; dsimp only
      rw [hn, show r.up - r.low = 2 * π by linarith]
  obtain ⟨n, elong⟩ := elong
  have : cart (matrixRotate c m).lat.val (matrixRotate c m).long.val = m.mulVec (cart c.lat.val c.long.val) := by
    rw [← hc, elat, elong]
    simp only [cart, cos_add_int_mul_two_pi, sin_add_int_mul_two_pi]
  show WithLp.toLp 2 (cart (matrixRotate c m).lat.val (matrixRotate c m).long.val) = _
  rw [this]; rfl

/-- C52: applying two orthogonal matrices in turn is applying their product. -/
theorem matrixRotate_comp {c : LL} (h : WF c) {m n : Matrix (Fin 3) (Fin 3) ℝ} (hm : m ∈ Matrix.orthogonalGroup (Fin 3) ℝ)
    (hn : n ∈ Matrix.orthogonalGroup (Fin 3) ℝ) : dir (matrixRotate (matrixRotate c m) n) = dir (matrixRotate c (n * m)) := by
  rw [matrixRotate_dir (matrixRotate_wf h m) hn, matrixRotate_dir h hm, matrixRotate_dir h (mul_mem hn hm), act_act]

/-- C52: rotating and rotating back restores the direction. -/
theorem matrixRotate_inverse {c : LL} (h : WF c) {m : Matrix (Fin 3) (Fin 3) ℝ} (hm : m ∈ Matrix.orthogonalGroup (Fin 3) ℝ) :
    dir (matrixRotate (matrixRotate c m) m.transpose) = dir c := by
  have ht : m.transpose ∈ Matrix.orthogonalGroup (Fin 3) ℝ := by
    rw [Matrix.mem_orthogonalGroup_iff'] at hm
    rw [Matrix.mem_orthogonalGroup_iff]
    simpa using hm
  have e : m.transpose * m = 1 := by rwa [Matrix.mem_orthogonalGroup_iff'] at hm
  rw [matrixRotate_dir (matrixRotate_wf h m) ht, matrixRotate_dir h hm, act_act, e]
  simp [act]

/-- C52: orthogonal matrices preserve separations. -/
theorem matrixRotate_separation {c d : LL} (hc : WF c) (hd : WF d) {m : Matrix (Fin 3) (Fin 3) ℝ}
    (hm : m ∈ Matrix.orthogonalGroup (Fin 3) ℝ) : sub (matrixRotate c m) (matrixRotate d m) = sub c d := by
  rw [separation_eq_angle, separation_eq_angle, matrixRotate_dir hc hm, matrixRotate_dir hd hm]
  unfold InnerProductGeometry.angle
  rw [inner_act hm, norm_act hm, norm_act hm]

/-! ## C53: rectangular coordinates -/

/-- C53: setting the length of a nonzero vector scales it by one factor to that length (for a length that is not negative). -/
theorem setLength_spec (r : Rect) (val : ℝ) (h : r.length ≠ 0) (hv : 0 ≤ val) :
    ∃ r', r.setLength val = some r' ∧ r'.length = val ∧
      r'.x * r.length = val * r.x ∧ r'.y * r.length = val * r.y ∧ r'.z * r.length = val * r.z := by
  refine ⟨⟨r.x * (val / r.length), r.y * (val / r.length), r.z * (val / r.length)⟩, by simp [Rect.setLength, h], ?_, ?_, ?_, ?_⟩
  · have hl : 0 < r.length := lt_of_le_of_ne (sqrt_nonneg _) (Ne.symm h)
    have hsq : r.length ^ 2 = r.x ^ 2 + r.y ^ 2 + r.z ^ 2 := sq_sqrt (by positivity)
    unfold Rect.length at hl hsq ⊢
    set L := √(r.x ^ 2 + r.y ^ 2 + r.z ^ 2) with hL
    rw [show (r.x * (val / L)) ^ 2 + (r.y * (val / L)) ^ 2 + (r.z * (val / L)) ^ 2 = (r.x ^ 2 + r.y ^ 2 + r.z ^ 2) * (val / L) ^ 2 by ring,
      ← hsq, ← mul_pow, mul_div_cancel₀ _ hl.ne', sqrt_sq hv]
  · simp only; field_simp
  · simp only; field_simp
  · simp only; field_simp

/-- C53: sums and differences are taken componentwise: adding back a subtracted position gives the first one, the order of addition does not
matter, and the length of a difference is the Euclidean distance. -/
theorem rect_add_sub (r s : Rect) :
    (r.sub s).add s = r ∧ (r.add s).sub s = r ∧ r.add s = s.add r ∧ (r.add ⟨0, 0, 0⟩) = r ∧
    (r.sub s).length ^ 2 = (r.x - s.x) ^ 2 + (r.y - s.y) ^ 2 + (r.z - s.z) ^ 2 := by
  refine ⟨by simp [Rect.add, Rect.sub], by simp [Rect.add, Rect.sub], by simp [Rect.add, add_comm], by simp [Rect.add], ?_⟩
  unfold Rect.length Rect.sub
  rw [sq_sqrt (by positivity)]

/-- C53: the zero vector cannot be given a length. -/
theorem setLength_zero (val : ℝ) : (⟨0, 0, 0⟩ : Rect).setLength val = none := by
  simp [Rect.setLength, Rect.length]

/-- Non-vacuity for C52: a quarter turn about z is orthogonal and moves longitude 0 to longitude 90°. -/
example : (!![0, -1, 0; 1, 0, 0; 0, 0, 1] : Matrix (Fin 3) (Fin 3) ℝ) ∈ Matrix.orthogonalGroup (Fin 3) ℝ ∧ WF (construct none 0 0) := by
  refine ⟨?_, ?_⟩
  · rw [Matrix.mem_orthogonalGroup_iff']
    ext i j
    fin_cases i <;> fin_cases j <;> simp [Matrix.mul_apply, Fin.sum_univ_three]
  · exact setLong_wf (setLat_wf (fresh_wf (Or.inl rfl)) _) _

end

end Verif.LatLong

import Verif.RectFrames
import Verif.FramesEpoch
import Mathlib.Tactic.SplitIfs

/-!
# Rectangular frames, distances and parallax (C144, C145)
-/

namespace Verif.RectFrames

noncomputable section

open Real Verif.Angle Verif.LatLong Verif.Rotation Verif.Frames

/-! ## Specification -/

/-- The vector of a rectangular coordinate. -/
def RObj.vec (r : RObj) : Fin 3 → ℝ := ![r.x, r.y, r.z]

/-- The length of the vector. -/
def RObj.len (r : RObj) : ℝ := √(r.x * r.x + r.y * r.y + r.z * r.z)

/-- Parsecs per unit, by the constant the rectangular classes use. -/
def Unit.pcs : Unit → ℝ
  | .au => 1 / auperpc
  | .pc => 1

theorem auperpc_pos : 0 < auperpc := by
  unfold auperpc asecperrad; have := Real.pi_pos; positivity

/-! ## C144: units -/

/-- C144: assigning a unit to a coordinate that has one keeps the physical position; to one that has none it only labels; None removes the
label; anything else raises ValueError and changes nothing. -/
theorem setUnit_exact (r : RObj) (u : Unit) :
    (∃ r', setUnit r (.unit u) = .ok r' ∧ r'.unit = some u ∧ r'.epoch = r.epoch ∧
      (∀ v, r.unit = some v → u.pcs • r'.vec = v.pcs • r.vec) ∧ (r.unit = none → r'.vec = r.vec)) ∧
    setUnit r .none = .ok { r with unit := none } ∧ setUnit r .other = .error .value := by
  have h := auperpc_pos.ne'
  refine ⟨?_, rfl, rfl⟩
  obtain ⟨x, y, z, e, un⟩ := r
  rcases un with _ | un
  · exact ⟨_, rfl, rfl, rfl, by simp, fun _ => rfl⟩
  · cases un <;> cases u
    · exact ⟨_, rfl, rfl, rfl, by simp, by simp⟩
    · refine ⟨_, rfl, rfl, rfl, ?_, by simp⟩
      intro v hv; cases hv
      ext i; fin_cases i <;> simp [Unit.pcs, RObj.vec] <;> ring
    · refine ⟨_, rfl, rfl, rfl, ?_, by simp⟩
      intro v hv; cases hv
      ext i; fin_cases i <;> simp [Unit.pcs, RObj.vec] <;> field_simp
    · exact ⟨_, rfl, rfl, rfl, by simp, by simp⟩

/-! ## C144: rectangular and spherical -/

theorem sph_vec {x y z : ℝ} (h : √(x * x + y * y + z * z) ≠ 0) :
    let l := √(x * x + y * y + z * z);
    -(π / 2) ≤ arcsin (z / l) ∧ arcsin (z / l) ≤ π / 2 ∧ l • cart (arcsin (z / l)) (atan2 y x) = ![x, y, z] := by
  intro l
  have hl : 0 < l := lt_of_le_of_ne (sqrt_nonneg _) (Ne.symm h)
  have hsq : l ^ 2 = x * x + y * y + z * z := sq_sqrt (by nlinarith [sq_nonneg x, sq_nonneg y, sq_nonneg z])
  refine ⟨neg_pi_div_two_le_arcsin _, arcsin_le_pi_div_two _, ?_⟩
  have hz1 : z ≤ l := by nlinarith [sq_nonneg x, sq_nonneg y, abs_le_of_sq_le_sq' (show z ^ 2 ≤ l ^ 2 by nlinarith [sq_nonneg x, sq_nonneg y]) hl.le]
  have hz0 : -l ≤ z := (abs_le_of_sq_le_sq' (show z ^ 2 ≤ l ^ 2 by nlinarith [sq_nonneg x, sq_nonneg y]) hl.le).1
  have hs : sin (arcsin (z / l)) = z / l := sin_arcsin (by rw [le_div_iff₀ hl]; linarith) (by rw [div_le_iff₀ hl]; linarith)
  have hc : l * cos (arcsin (z / l)) = √(x * x + y * y) := by
    rw [cos_arcsin]
    have : 1 - (z / l) ^ 2 = (x * x + y * y) / l ^ 2 := by
      rw [div_pow]; field_simp; linarith
    rw [this, sqrt_div (by nlinarith [sq_nonneg x, sq_nonneg y]), sqrt_sq hl.le]
    field_simp
  have hnl : ‖(⟨x, y⟩ : ℂ)‖ = √(x * x + y * y) := by rw [Complex.norm_def, Complex.normSq_mk]
  have clong : √(x * x + y * y) * cos (atan2 y x) = x := by
    rw [← hnl]; exact Complex.norm_mul_cos_arg (⟨x, y⟩ : ℂ)
  have slong : √(x * x + y * y) * sin (atan2 y x) = y := by
    rw [← hnl]; exact Complex.norm_mul_sin_arg (⟨x, y⟩ : ℂ)
  funext i
  fin_cases i
  · show l * (cos (arcsin (z / l)) * cos (atan2 y x)) = x
    rw [← mul_assoc, hc, clong]
  · show l * (cos (arcsin (z / l)) * sin (atan2 y x)) = y
    rw [← mul_assoc, hc, slong]
  · show l * sin (arcsin (z / l)) = z
    rw [hs]; field_simp

theorem eqFull : FullTurn eqCls.longrange := eqCls_full

/-- The direction a spherical coordinate is given by a vector. -/
theorem construct_vec {x y z : ℝ} (h : √(x * x + y * y + z * z) ≠ 0) :
    √(x * x + y * y + z * z) • dir (LatLong.construct eqCls.longrange (atan2 y x) (arcsin (z / √(x * x + y * y + z * z)))) =
      WithLp.toLp 2 ![x, y, z] := by
  obtain ⟨h0, h1, h2⟩ := sph_vec h
  rw [(construct_dir eqFull _ _ h0 h1).2.2, ← h2]
  rfl

theorem vec_zero_iff (r : RObj) : √(r.x * r.x + r.y * r.y + r.z * r.z) = 0 ↔ r.vec = 0 := by
  rw [sqrt_eq_zero (by nlinarith [sq_nonneg r.x, sq_nonneg r.y, sq_nonneg r.z])]
  constructor
  · intro h
    have hx : r.x = 0 := by nlinarith [sq_nonneg r.x, sq_nonneg r.y, sq_nonneg r.z]
    have hy : r.y = 0 := by nlinarith [sq_nonneg r.x, sq_nonneg r.y, sq_nonneg r.z]
    have hz : r.z = 0 := by nlinarith [sq_nonneg r.x, sq_nonneg r.y, sq_nonneg r.z]
    funext i; fin_cases i <;> simp [RObj.vec, hx, hy, hz]
  · intro h
    have hx : r.x = 0 := congrFun h 0
    have hy : r.y = 0 := congrFun h 1
    have hz : r.z = 0 := congrFun h 2
    rw [hx, hy, hz]; simp

/-- C144: assigning `length` scales the vector along itself (a negative value turns it round); the zero vector raises ZeroDivisionError. -/
theorem setLength_exact (r : RObj) (v : ℝ) :
    (r.vec = 0 → setLength r v = .error .zeroDivision) ∧
    (r.vec ≠ 0 → ∃ r', setLength r v = .ok r' ∧ r'.vec = (v / r.len) • r.vec ∧ r'.len = |v| ∧ r'.unit = r.unit ∧ r'.epoch = r.epoch) := by
  have hsq : ∀ x y z : ℝ, x ^ 2 + y ^ 2 + z ^ 2 = x * x + y * y + z * z := by intro x y z; ring
  constructor
  · intro h
    have := (vec_zero_iff r).2 h
    simp only [setLength, hsq, if_pos this]
  · intro h
    have hl : √(r.x * r.x + r.y * r.y + r.z * r.z) ≠ 0 := fun h0 => h ((vec_zero_iff r).1 h0)
    refine ⟨⟨r.x * (v / r.len), r.y * (v / r.len), r.z * (v / r.len), r.epoch, r.unit⟩,
      by simp only [setLength, hsq, if_neg hl]; rfl, ?_, ?_, rfl, rfl⟩
    · funext i; fin_cases i <;> simp [RObj.vec] <;> ring
    · have hn : 0 ≤ r.x * r.x + r.y * r.y + r.z * r.z := by nlinarith [sq_nonneg r.x, sq_nonneg r.y, sq_nonneg r.z]
      set l := √(r.x * r.x + r.y * r.y + r.z * r.z) with hld
      have h2 : l ^ 2 = r.x * r.x + r.y * r.y + r.z * r.z := sq_sqrt hn
      show √(r.x * (v / l) * (r.x * (v / l)) + r.y * (v / l) * (r.y * (v / l)) + r.z * (v / l) * (r.z * (v / l))) = |v|
      rw [show r.x * (v / l) * (r.x * (v / l)) + r.y * (v / l) * (r.y * (v / l)) + r.z * (v / l) * (r.z * (v / l)) =
        (r.x * r.x + r.y * r.y + r.z * r.z) * (v / l) ^ 2 by ring, ← h2, ← mul_pow, mul_div_cancel₀ _ hl, sqrt_sq_eq_abs]

/-- C144: the spherical coordinate of a vector: it points along the vector, its distance is the vector's length in the vector's unit (none
if the unit is None), the epoch is kept (as a float); the zero vector raises ZeroDivisionError. -/
theorem toSph_exact (r : RObj) :
    (r.vec = 0 → toSph r = .error .zeroDivision) ∧
    (r.vec ≠ 0 → ∃ s, toSph r = .ok s ∧ WF s.pos ∧ r.len • dir s.pos = WithLp.toLp 2 r.vec ∧
      s.epoch.map Epoch.val = r.epoch.map Epoch.val ∧
      (r.unit = none → s.dpc = none) ∧ (r.unit = some .pc → s.dpc = some (r.len, 0)) ∧
      (r.unit = some .au → distanceau s = some (r.len, 0))) := by
  constructor
  · intro h
    have := (vec_zero_iff r).2 h
    simp [toSph, this]
  · intro h
    have hl : √(r.x * r.x + r.y * r.y + r.z * r.z) ≠ 0 := fun h0 => h ((vec_zero_iff r).1 h0)
    refine ⟨mkEq (atan2 r.y r.x) (arcsin (r.z / √(r.x * r.x + r.y * r.y + r.z * r.z))) r.epoch _, by simp only [toSph, if_neg hl]; rfl,
      setLong_wf (setLat_wf (fresh_wf eqFull) _) _, construct_vec hl, ?_, ?_, ?_, ?_⟩
    · simp only [mkEq, Option.map_map]; congr 1
    · intro hu; simp [mkEq, hu]
    · intro hu; simp [mkEq, hu, RObj.len]
    · intro hu
      simp only [mkEq, hu, distanceau, Option.map_some, auToDpc, RObj.len, Option.some.injEq, Prod.mk.injEq, zero_mul, and_true]
      unfold cmperau cmperpc; field_simp

/-- C144: the vector of a spherical coordinate: along its direction, of the length of its distance in parsecs with unit 'pc' however small the
distance (the documented switch to AU below 1000 AU never happens), or 1 without a unit. -/
theorem toRect_exact (s : SObj) :
    (toRect s).epoch = s.epoch ∧
    (s.dpc = none → (toRect s).unit = none ∧ WithLp.toLp 2 (toRect s).vec = dir s.pos) ∧
    (∀ d, s.dpc = some d → (toRect s).unit = some .pc ∧ WithLp.toLp 2 (toRect s).vec = d.1 • dir s.pos) := by
  have hv : ∀ k : ℝ, (![k * cos s.pos.long.val * cos s.pos.lat.val, k * sin s.pos.long.val * cos s.pos.lat.val, k * sin s.pos.lat.val] : Fin 3 → ℝ)
      = k • cart s.pos.lat.val s.pos.long.val := by
    intro k; funext i; fin_cases i <;> simp [cart] <;> ring
  refine ⟨rfl, ?_, ?_⟩
  · intro h
    refine ⟨by simp [toRect, h], ?_⟩
    have : (toRect s).vec = (1 : ℝ) • cart s.pos.lat.val s.pos.long.val := by rw [← hv]; simp [toRect, h, RObj.vec]
    rw [this, one_smul]; rfl
  · intro d h
    refine ⟨by simp [toRect, h, tupleGreater], ?_⟩
    have : (toRect s).vec = d.1 • cart s.pos.lat.val s.pos.long.val := by rw [← hv]; simp [toRect, h, tupleGreater, RObj.vec]
    rw [this]; rfl

/-- C144: a vector in parsecs, or one without unit and of length 1, survives the round trip through spherical coordinates. -/
theorem rect_round_trip (r : RObj) (h : r.vec ≠ 0) (hu : r.unit = some .pc ∨ (r.unit = none ∧ r.len = 1)) :
    ∃ s, toSph r = .ok s ∧ (toRect s).vec = r.vec ∧ (toRect s).unit = r.unit ∧ (toRect s).epoch.map Epoch.val = r.epoch.map Epoch.val := by
  obtain ⟨s, hs, -, hd, he, hn, hp, -⟩ := (toSph_exact r).2 h
  obtain ⟨te, tn, tp⟩ := toRect_exact s
  refine ⟨s, hs, ?_⟩
  rcases hu with hu | ⟨hu, h1⟩
  · obtain ⟨a, b⟩ := tp _ (hp hu)
    refine ⟨?_, by rw [a, hu], by rw [te, he]⟩
    rw [hd] at b
    exact WithLp.toLp_injective 2 b
  · obtain ⟨a, b⟩ := tn (hn hu)
    refine ⟨?_, by rw [a, hu], by rw [te, he]⟩
    rw [h1, one_smul] at hd
    rw [hd] at b
    exact WithLp.toLp_injective 2 b

/-- The two constants for the number of AU in a parsec are not the same number. -/
theorem constants_differ : auperpc ≠ cmperpc / cmperau := by
  unfold auperpc asecperrad cmperpc cmperau
  have h1 := Real.pi_gt_d20
  have h2 := Real.pi_lt_d20
  have hp := Real.pi_pos
  intro h
  have h3 : 180 * 60 * 60 * (1.49597887e13 : ℝ) = 3.08568025e18 * π := by
    field_simp at h; linarith
  linarith

/-- C144: a vector in AU comes back in parsecs, and converting it to AU again scales it by the quotient of two slightly different values of
AU per parsec: it never returns to where it was. -/
theorem au_round_trip (r : RObj) (h : r.vec ≠ 0) (hu : r.unit = some .au) :
    ∃ s r', toSph r = .ok s ∧ setUnit (toRect s) (.unit .au) = .ok r' ∧ r'.vec = (auperpc / (cmperpc / cmperau)) • r.vec ∧ r'.vec ≠ r.vec := by
  obtain ⟨s, hs, -, hd, he, -, -, ha⟩ := (toSph_exact r).2 h
  have hda := ha hu
  have hcm : cmperpc / cmperau ≠ 0 := by unfold cmperpc cmperau; norm_num
  obtain ⟨d, hdpc, hd1⟩ : ∃ d, s.dpc = some d ∧ d.1 * (cmperpc / cmperau) = r.len := by
    cases hx : s.dpc with
    | none => simp [distanceau, hx] at hda
    | some d =>
      simp only [distanceau, hx, Option.map_some, Option.some.injEq, Prod.mk.injEq] at hda
      exact ⟨d, rfl, by rw [← hda.1]; ring⟩
  obtain ⟨tu, tv⟩ := (toRect_exact s).2.2 d hdpc
  obtain ⟨r', hset, -, -, hphys, -⟩ := (setUnit_exact (toRect s) .au).1
  refine ⟨s, r', hs, hset, ?_⟩
  have hv : (toRect s).vec = (1 / (cmperpc / cmperau)) • r.vec := by
    apply WithLp.toLp_injective 2
    rw [tv, WithLp.toLp_smul, ← hd, smul_smul, ← hd1]
    congr 1
    rw [one_div, mul_comm d.1, inv_mul_cancel_left₀ hcm]
  have hvec : r'.vec = (auperpc / (cmperpc / cmperau)) • r.vec := by
    have h1 := hphys .pc tu
    simp only [Unit.pcs, one_smul] at h1
    have h2 : r'.vec = auperpc • (toRect s).vec := by
      rw [← h1, smul_smul, mul_one_div_cancel auperpc_pos.ne', one_smul]
    rw [h2, hv, smul_smul]; congr 1; ring
  refine ⟨hvec, ?_⟩
  rw [hvec]
  intro heq
  have hk : auperpc / (cmperpc / cmperau) ≠ 1 := by
    intro h1; exact constants_differ ((div_eq_one_iff_eq hcm).1 h1)
  apply h
  have : (auperpc / (cmperpc / cmperau) - 1) • r.vec = 0 := by rw [sub_smul, heq, one_smul, sub_self]
  rcases smul_eq_zero.1 this with h1 | h1
  · exact absurd (by linarith) hk
  · exact h1

/-- C144: the geocentric ecliptic vectors (in AU) do survive: both directions use the same constants. -/
theorem ecl_round_trip (r : RObj) (h : r.vec ≠ 0) :
    ∃ s, eclToSph r = .ok s ∧ (eclToRect s).vec = r.vec ∧ (eclToRect s).epoch = r.epoch := by
  have hl : √(r.x * r.x + r.y * r.y + r.z * r.z) ≠ 0 := fun h0 => h ((vec_zero_iff r).1 h0)
  refine ⟨_, by simp only [eclToSph, if_neg hl]; rfl, ?_, rfl⟩
  have hc := construct_vec hl
  set c := LatLong.construct eqCls.longrange (atan2 r.y r.x) (arcsin (r.z / √(r.x * r.x + r.y * r.y + r.z * r.z))) with hcdef
  set l := √(r.x * r.x + r.y * r.y + r.z * r.z) with hldef
  have hd : l * (cmperau * (1 / cmperpc)) * (cmperpc * (1 / cmperau)) = l := by unfold cmperau cmperpc; field_simp
  apply WithLp.toLp_injective 2
  show WithLp.toLp 2 (eclToRect ⟨c, r.epoch, some (auToDpc l)⟩).vec = WithLp.toLp 2 ![r.x, r.y, r.z]
  rw [← hc]
  have : (eclToRect ⟨c, r.epoch, some (auToDpc l)⟩).vec = l • cart c.lat.val c.long.val := by
    have e : eclToRect ⟨c, r.epoch, some (auToDpc l)⟩ = ⟨l * (cmperau * (1 / cmperpc)) * (cmperpc * (1 / cmperau)) * cos c.long.val * cos c.lat.val,
      l * (cmperau * (1 / cmperpc)) * (cmperpc * (1 / cmperau)) * sin c.long.val * cos c.lat.val,
      l * (cmperau * (1 / cmperpc)) * (cmperpc * (1 / cmperau)) * sin c.lat.val, r.epoch, some .au⟩ := rfl
    rw [e, hd]
    funext i
    fin_cases i <;> simp [RObj.vec, cart] <;> ring
  rw [this]; rfl

/-- C144: an ecliptic direction without a distance becomes a vector of length one. -/
theorem ecl_unit (s : SObj) (h : s.dpc = none) : (eclToRect s).vec = cart s.pos.lat.val s.pos.long.val := by
  have e : eclToRect s = ⟨1 * cos s.pos.long.val * cos s.pos.lat.val, 1 * sin s.pos.long.val * cos s.pos.lat.val, 1 * sin s.pos.lat.val, s.epoch, some .au⟩ := by
    simp [eclToRect, distanceau, h]
  rw [e]
  funext i
  fin_cases i <;> simp [RObj.vec, cart] <;> ring

/-! ## C145: parallax -/

/-- The Earth's position (given in AU) in the unit of a coordinate. -/
def earthIn (earth : ℝ → ℝ × ℝ × ℝ) (u : Unit) (t : ℝ) : Fin 3 → ℝ :=
  ((1 / auperpc) / u.pcs) • ![(earth t).1, (earth t).2.1, (earth t).2.2]

theorem earthIn_au (earth : ℝ → ℝ × ℝ × ℝ) (t : ℝ) : earthIn earth .au t = ![(earth t).1, (earth t).2.1, (earth t).2.2] := by
  have h := auperpc_pos.ne'
  have : (1 / auperpc) / (1 / auperpc) = 1 := div_self (one_div_ne_zero h)
  rw [earthIn]
  simp only [Unit.pcs]
  rw [this, one_smul]

theorem earthIn_pc (earth : ℝ → ℝ × ℝ × ℝ) (t : ℝ) :
    earthIn earth .pc t = ![(earth t).1 / auperpc, (earth t).2.1 / auperpc, (earth t).2.2 / auperpc] := by
  simp only [earthIn, Unit.pcs, div_one]
  funext i; fin_cases i <;> simp <;> ring

/-- What both parallax transforms do: without an epoch ValueError; without a unit (infinitely far) nothing; else subtract the Earth. -/
theorem shift_exact (earth : ℝ → ℝ × ℝ × ℝ) (r : RObj) :
    gcrsToIcrs earth r = icrsToGcrs earth r ∧
    (r.epoch = none → icrsToGcrs earth r = .error .value) ∧
    (∀ e, r.epoch = some e → ∃ q, icrsToGcrs earth r = .ok q ∧ q.epoch = some e ∧ q.unit = r.unit ∧
      (r.unit = none → q.vec = r.vec) ∧ (∀ u, r.unit = some u → q.vec = r.vec - earthIn earth u e.val)) := by
  refine ⟨rfl, ?_, ?_⟩
  · intro h; simp [icrsToGcrs, h]
  · intro e he
    obtain ⟨x, y, z, ep, un⟩ := r
    subst he
    rcases un with _ | un
    · exact ⟨_, rfl, rfl, rfl, fun _ => rfl, by simp⟩
    · cases un
      · refine ⟨_, rfl, rfl, rfl, by simp, ?_⟩
        intro u hu; cases hu
        rw [earthIn_au]
        funext i; fin_cases i <;> simp [RObj.vec]
      · refine ⟨_, rfl, rfl, rfl, by simp, ?_⟩
        intro u hu; cases hu
        rw [earthIn_pc]
        funext i; fin_cases i <;> simp [RObj.vec]

/-- C145: rectangular ICRS to GCRS is right: the vector seen from the Earth, or the same vector if it has no unit. -/
theorem icrs_to_gcrs (earth : ℝ → ℝ × ℝ × ℝ) (r : RObj) :
    (r.epoch = none → icrsToGcrs earth r = .error .value) ∧
    (∀ e, r.epoch = some e → ∃ q, icrsToGcrs earth r = .ok q ∧ q.epoch = some e ∧ q.unit = r.unit ∧
      (r.unit = none → q.vec = r.vec) ∧ (∀ u, r.unit = some u → q.vec = r.vec - earthIn earth u e.val)) :=
  (shift_exact earth r).2

/-- C145: rectangular GCRS to ICRS subtracts the Earth's position as well, where it has to be added: the result is the barycentric vector
exactly when the Earth is at the barycentre, and going there and back moves a coordinate by twice the Earth's position. -/
theorem gcrs_to_icrs_wrong (earth : ℝ → ℝ × ℝ × ℝ) (r : RObj) (e : Epoch) (he : r.epoch = some e) (u : Unit) (hu : r.unit = some u) :
    ∃ q q', gcrsToIcrs earth r = .ok q ∧ icrsToGcrs earth q = .ok q' ∧ q.unit = some u ∧ q'.unit = some u ∧
      (q.vec = r.vec + earthIn earth u e.val ↔ earth e.val = (0, 0, 0)) ∧
      q'.vec = r.vec - (2 : ℝ) • earthIn earth u e.val := by
  obtain ⟨q, h1, h2, h3, -, h5⟩ := (shift_exact earth r).2.2 e he
  obtain ⟨q', k1, k2, k3, -, k5⟩ := (shift_exact earth q).2.2 e h2
  have hv := h5 u hu
  have hv' := k5 u (h3.trans hu)
  refine ⟨q, q', h1, k1, h3.trans hu, k3.trans (h3.trans hu), ?_, ?_⟩
  · rw [hv, sub_eq_add_neg, add_right_inj, neg_eq_iff_add_eq_zero, ← two_smul ℝ]
    have hk : (1 / auperpc) / u.pcs ≠ 0 := by
      have := auperpc_pos.ne'
      cases u <;> simp [Unit.pcs, this]
    rw [earthIn, smul_smul, smul_eq_zero]
    constructor
    · rintro (h | h)
      · exact absurd h (mul_ne_zero two_ne_zero hk)
      · have a := congrFun h 0; have b := congrFun h 1; have c := congrFun h 2
        simp at a b c
        exact Prod.ext a (Prod.ext b c)
    · intro h; right; rw [h]; funext i; fin_cases i <;> rfl
  · rw [hv', hv]; module

/-- Without a unit both directions leave the vector alone, so the round trip is exact. -/
theorem no_parallax_round_trip (earth : ℝ → ℝ × ℝ × ℝ) (r : RObj) (e : Epoch) (he : r.epoch = some e) (hu : r.unit = none) :
    gcrsToIcrs earth r = .ok r ∧ icrsToGcrs earth r = .ok r := by
  obtain ⟨x, y, z, ep, un⟩ := r
  subst he; subst hu
  exact ⟨rfl, rfl⟩

/-- One spherical leg, either way: from a coordinate with direction `dir s.pos` at distance `d`, the direction of `d·dir − Earth`; the
distance of the original is put back. -/
theorem sph_leg (earth : ℝ → ℝ × ℝ × ℝ) (s : SObj) (e : Epoch) (he : s.epoch = some e) :
    sphGcrsToIcrs earth s = sphIcrsToGcrs earth s ∧
    (s.dpc = none → ∃ c, sphIcrsToGcrs earth s = .ok c ∧ WF c.pos ∧ c.epoch = some e ∧ c.dpc = none ∧ dir c.pos = dir s.pos) ∧
    (∀ d, s.dpc = some d →
      (d.1 • dir s.pos = WithLp.toLp 2 (earthIn earth .pc e.val) → sphIcrsToGcrs earth s = .error .zeroDivision) ∧
      (d.1 • dir s.pos ≠ WithLp.toLp 2 (earthIn earth .pc e.val) → ∃ c, sphIcrsToGcrs earth s = .ok c ∧ WF c.pos ∧ c.epoch = some e ∧
        c.dpc = some d ∧ ∃ k : ℝ, 0 < k ∧ k • dir c.pos = d.1 • dir s.pos - WithLp.toLp 2 (earthIn earth .pc e.val))) := by
  obtain ⟨te, tn, tp⟩ := toRect_exact s
  obtain ⟨hg, -, hs⟩ := shift_exact earth (toRect s)
  obtain ⟨q, h1, h2, h3, h4, h5⟩ := hs e (te.trans he)
  have hlen : ∀ r : RObj, r.vec ≠ 0 → 0 < r.len := fun r h =>
    lt_of_le_of_ne (sqrt_nonneg _) (fun h0 => h ((vec_zero_iff r).1 h0.symm))
  refine ⟨by simp only [sphGcrsToIcrs, sphIcrsToGcrs, hg], ?_, ?_⟩
  · intro hd
    obtain ⟨a, b⟩ := tn hd
    have hq : q.vec = (toRect s).vec := h4 a
    have hqd : WithLp.toLp 2 q.vec = dir s.pos := by rw [hq, b]
    have hq0 : q.vec ≠ 0 := by
      intro h0
      have hn := Verif.LatLong.norm_dir s.pos
      rw [← hqd, h0] at hn
      simp at hn
    obtain ⟨t, ht, hw, hv, -, hdn, -, -⟩ := (toSph_exact q).2 hq0
    have hone : q.len = 1 := by
      have := congrArg norm hv
      rw [norm_smul, Verif.LatLong.norm_dir, hqd, Verif.LatLong.norm_dir, mul_one, Real.norm_of_nonneg (hlen q hq0).le] at this
      exact this
    refine ⟨finish s t, by simp only [sphIcrsToGcrs, h1, bind, Except.bind, ht, pure, Except.pure], hw, he, ?_, ?_⟩
    · simp only [finish, hd]; exact hdn (h3.trans a)
    · rw [hone, one_smul, hqd] at hv; exact hv
  · intro d hd
    obtain ⟨a, b⟩ := tp d hd
    have hqv := h5 .pc a
    have hqd : WithLp.toLp 2 q.vec = d.1 • dir s.pos - WithLp.toLp 2 (earthIn earth .pc e.val) := by
      rw [hqv, WithLp.toLp_sub, b]
    constructor
    · intro h0
      have : q.vec = 0 := by
        apply WithLp.toLp_injective 2
        rw [hqd, h0, sub_self]; rfl
      simp only [sphIcrsToGcrs, h1, bind, Except.bind, (toSph_exact q).1 this]
    · intro h0
      have hq0 : q.vec ≠ 0 := by
        intro hz
        rw [hz] at hqd
        exact h0 (sub_eq_zero.1 (by rw [← hqd]; rfl))
      obtain ⟨t, ht, hw, hv, -, -, -, -⟩ := (toSph_exact q).2 hq0
      refine ⟨finish s t, by simp only [sphIcrsToGcrs, h1, bind, Except.bind, ht, pure, Except.pure], hw, he, ?_, q.len, hlen q hq0, ?_⟩
      · simp only [finish, hd]
      · rw [← hqd, ← hv]; rfl

/-- C145: assigning a new epoch to a GCRS coordinate that has no distance leaves its direction; one at distance `d` ends at the direction of
`d·n − Earth(new)`, where `n` is the direction of `d·dir − Earth(old)`, and still carries the distance `d`. -/
theorem gcrs_new_epoch (earth : ℝ → ℝ × ℝ × ℝ) (s : SObj) (e : Epoch) (he : s.epoch = some e) (v : ℝ) :
    (s.dpc = none → ∃ c, gcrsNewEpoch earth s v = .ok c ∧ WF c.pos ∧ c.epoch = some (.flt v) ∧ c.dpc = none ∧ dir c.pos = dir s.pos) ∧
    (∀ d c, s.dpc = some d → gcrsNewEpoch earth s v = .ok c → c.epoch = some (.flt v) ∧ c.dpc = some d ∧
      ∃ (n : LL) (k k' : ℝ), 0 < k ∧ 0 < k' ∧ k • dir n = d.1 • dir s.pos - WithLp.toLp 2 (earthIn earth .pc e.val) ∧
        k' • dir c.pos = d.1 • dir n - WithLp.toLp 2 (earthIn earth .pc v)) := by
  obtain ⟨hg, hn, hp⟩ := sph_leg earth s e he
  constructor
  · intro hd
    obtain ⟨c1, a1, w1, e1, d1, r1⟩ := hn hd
    obtain ⟨-, hn2, -⟩ := sph_leg earth { c1 with epoch := some (.flt v) } (.flt v) rfl
    obtain ⟨c2, a2, w2, e2, d2, r2⟩ := hn2 d1
    refine ⟨⟨c2.pos, some (.flt v), c2.dpc⟩, ?_, w2, rfl, d2, r2.trans r1⟩
    simp only [gcrsNewEpoch, hg, a1, a2, bind, Except.bind, pure, Except.pure]
  · intro d c hd hc
    obtain ⟨z, nz⟩ := hp d hd
    by_cases h0 : d.1 • dir s.pos = WithLp.toLp 2 (earthIn earth .pc e.val)
    · simp only [gcrsNewEpoch, hg, z h0, bind, Except.bind] at hc
      exact absurd hc (by simp)
    · obtain ⟨c1, a1, w1, e1, d1, k, hk, r1⟩ := nz h0
      obtain ⟨-, -, hp2⟩ := sph_leg earth { c1 with epoch := some (.flt v) } (.flt v) rfl
      obtain ⟨z2, nz2⟩ := hp2 d d1
      by_cases h1 : d.1 • dir c1.pos = WithLp.toLp 2 (earthIn earth .pc v)
      · simp only [gcrsNewEpoch, hg, a1, z2 h1, bind, Except.bind] at hc
        exact absurd hc (by simp)
      · obtain ⟨c2, a2, w2, e2, d2, k2, hk2, r2⟩ := nz2 h1
        simp only [gcrsNewEpoch, hg, a1, a2, bind, Except.bind, pure, Except.pure, Except.ok.injEq] at hc
        subst hc
        exact ⟨rfl, d2, c1.pos, k, k2, hk, hk2, r1, r2⟩

/-- C145: once a rectangular GCRS or ecliptic coordinate has an epoch, assigning another raises TypeError; the ICRS class relabels.  A
coordinate without one is labelled, and None always removes the epoch; the vector is never moved. -/
theorem setEpochR_exact (c : RCls) (r : RObj) (v : ℝ) :
    setEpochR c r none = .ok { r with epoch := none } ∧
    (setEpochR c r (some v) = .error .type ↔ r.epoch ≠ none ∧ c ≠ .icrs) ∧
    ((r.epoch = none ∨ c = .icrs) → setEpochR c r (some v) = .ok { r with epoch := some (.flt v) }) := by
  refine ⟨rfl, ?_, ?_⟩
  · cases he : r.epoch <;> cases c <;> simp [setEpochR, he]
  · rintro (h | h)
    · simp [setEpochR, h]
    · cases he : r.epoch <;> simp [setEpochR, h, he]

/-- C145: assigning a second epoch to an ecliptic coordinate raises unless both errors are given and zero; when the errors are missing the
coordinate has already been moved although it still carries the old epoch; when it succeeds the error in latitude has become the new latitude. -/
theorem ecl_new_epoch (moved : ℝ × ℝ → ℝ × ℝ) (o : EObj) (e : Epoch) (he : o.epoch = some e) (v : ℝ) :
    ((eclNewEpoch moved o v).2 = .ok () ↔ o.laterr = some 0 ∧ o.longerr = some 0) ∧
    ((eclNewEpoch moved o v).2 ≠ .ok () → (eclNewEpoch moved o v).1.epoch = some e) ∧
    (o.laterr = none → o.longerr = none → eclNewEpoch moved o v =
      ({ o with lat := (moved (o.lat, o.long)).1, long := (moved (o.lat, o.long)).2 }, .error .attribute)) ∧
    (nonzero o.laterr ∨ nonzero o.longerr → eclNewEpoch moved o v = (o, .error .value)) ∧
    (o.laterr = some 0 → o.longerr = some 0 → (eclNewEpoch moved o v).1 =
      ⟨(moved (o.lat, o.long)).1, (moved (o.lat, o.long)).2, some (moved (o.lat, o.long)).1, some 0, some (.flt v)⟩) := by
  obtain ⟨la, lo, le, ge, ep⟩ := o
  subst he
  by_cases h1 : nonzero le ∨ nonzero ge
  · have hx : eclNewEpoch moved ⟨la, lo, le, ge, some e⟩ v = (⟨la, lo, le, ge, some e⟩, .error .value) := by
      simp only [eclNewEpoch, if_pos h1]
    rw [hx]
    have hne : ¬ (le = some 0 ∧ ge = some 0) := by
      rintro ⟨rfl, rfl⟩; rcases h1 with h | h <;> exact h.2 rfl
    refine ⟨by simpa using fun a b => hne ⟨a, b⟩, fun _ => rfl, ?_, fun _ => rfl, fun a b => absurd ⟨a, b⟩ hne⟩
    intro a b
    rcases h1 with h | h
    · exact absurd a h.1
    · exact absurd b h.1
  · have hn : ∀ {a : Option ℝ}, ¬ nonzero a → a = none ∨ a = some 0 := by
      intro a h; by_contra hc; push Not at hc; exact h hc
    have ha := hn (fun h => h1 (.inl h))
    have hb := hn (fun h => h1 (.inr h))
    rcases ha with rfl | rfl <;> rcases hb with rfl | rfl <;>
      refine ⟨?_, ?_, ?_, fun h => absurd h h1, ?_⟩ <;> simp [eclNewEpoch, nonzero]

/-- C145: the three-dimensional separation of two coordinates at distances `d1`, `d2` is the length of the difference of their vectors. -/
theorem separation3d_exact (p q : LL) (d1 d2 : ℝ) :
    separation3d (sub p q) d1 d2 = ‖d1 • dir p - d2 • dir q‖ := by
  have hs : cos (sub p q) = inner ℝ (dir p) (dir q) := by
    rw [separation_eq_angle, InnerProductGeometry.cos_angle, norm_dir, norm_dir, mul_one, div_one]
  have h := norm_sub_sq_real (d1 • dir p) (d2 • dir q)
  rw [norm_smul, norm_smul, Verif.LatLong.norm_dir, Verif.LatLong.norm_dir, inner_smul_left, inner_smul_right, ← hs] at h
  rw [separation3d, ← Real.sqrt_sq (norm_nonneg (d1 • dir p - d2 • dir q)), h]
  congr 1
  simp only [Real.norm_eq_abs, mul_one, sq_abs, conj_trivial]
  ring

end

end Verif.RectFrames

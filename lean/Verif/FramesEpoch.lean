import Verif.FramesProps
import Mathlib.LinearAlgebra.Matrix.NonsingularInverse

/-!
# Changing epochs and converting between frames (C140, C141)
-/

namespace Verif.Frames

noncomputable section

open Real Verif.Angle Verif.LatLong Verif.Rotation

/-! ## Matrices and directions -/

theorem act_one (v : EuclideanSpace ℝ (Fin 3)) : act 1 v = v := by simp [act]

/-- A coordinate that points along a given axis. -/
theorem axis_dirs {r : Option Range} (h : FullTurn r) :
    (∃ c, WF c ∧ c.long.range = r ∧ dir c = WithLp.toLp 2 ![1, 0, 0]) ∧
    (∃ c, WF c ∧ c.long.range = r ∧ dir c = WithLp.toLp 2 ![0, 1, 0]) ∧
    (∃ c, WF c ∧ c.long.range = r ∧ dir c = WithLp.toLp 2 ![0, 0, 1]) := by
  have hp := Real.pi_pos
  have key : ∀ lo la : ℝ, -(π / 2) ≤ la → la ≤ π / 2 → WF (LatLong.construct r lo la) ∧ (LatLong.construct r lo la).long.range = r := by
    intro lo la _ _
    refine ⟨setLong_wf (setLat_wf (fresh_wf h) la) lo, ?_⟩
    unfold LatLong.construct LatLong.setLong; rw [setRadians_range]; rfl
  refine ⟨⟨LatLong.construct r 0 0, (key 0 0 (by linarith) (by linarith)).1, (key 0 0 (by linarith) (by linarith)).2, ?_⟩,
    ⟨LatLong.construct r (π / 2) 0, (key _ 0 (by linarith) (by linarith)).1, (key _ 0 (by linarith) (by linarith)).2, ?_⟩,
    ⟨LatLong.construct r 0 (π / 2), (key 0 _ (by linarith) (by linarith)).1, (key 0 _ (by linarith) (by linarith)).2, ?_⟩⟩
  · rw [(construct_dir h 0 0 (by linarith) (by linarith)).2.2]; simp
  · rw [(construct_dir h (π / 2) 0 (by linarith) (by linarith)).2.2]; simp
  · rw [(construct_dir h 0 (π / 2) (by linarith) (by linarith)).2.2]; simp

/-- Two matrices that act alike on the directions of all coordinates are equal. -/
theorem act_ext {r : Option Range} (h : FullTurn r) {a b : M3}
    (hab : ∀ c, WF c → c.long.range = r → act a (dir c) = act b (dir c)) : a = b := by
  obtain ⟨⟨c0, w0, r0, d0⟩, ⟨c1, w1, r1, d1⟩, ⟨c2, w2, r2, d2⟩⟩ := axis_dirs h
  have k0 := hab c0 w0 r0
  have k1 := hab c1 w1 r1
  have k2 := hab c2 w2 r2
  rw [d0] at k0; rw [d1] at k1; rw [d2] at k2
  ext i j
  have g : ∀ v, act a (WithLp.toLp 2 v) = act b (WithLp.toLp 2 v) → a.mulVec v i = b.mulVec v i := by
    intro v hv
    have := congrArg (fun w : EuclideanSpace ℝ (Fin 3) => WithLp.ofLp w i) hv
    simpa [act] using this
  have g0 := g _ k0
  have g1 := g _ k1
  have g2 := g _ k2
  simp [Matrix.mulVec, dotProduct, Fin.sum_univ_three] at g0 g1 g2
  fin_cases j
  · exact g0
  · exact g1
  · exact g2

/-! ## C140: epochs -/

/-- All matrices a class applies are rotations. -/
def Rotating : Kind → Prop
  | none => True
  | some m => ∀ a b, IsRotation (m a b)

theorem setEpoch_wf (k : Kind) {o : Obj} (h : WF o.pos) (v : Option ℝ) : WF (setEpoch k o v).pos := by
  cases v with
  | none => exact h
  | some v =>
    cases he : o.epoch with
    | none => simp only [setEpoch, he]; exact h
    | some e =>
      cases k with
      | none => simp only [setEpoch, he, transformToEpoch]; exact h
      | some m => simp only [setEpoch, he, transformToEpoch]; exact matrixRotate_wf h _

theorem step_wf (k : Kind) (j : Bool) {o : Obj} (h : WF o.pos) (op : Op) : WF (step k j o op).pos := by
  cases op with
  | epoch v => exact setEpoch_wf k h v
  | jdepoch jd => exact h

theorem setEpoch_some (m : Epoch → Epoch → M3) {o : Obj} {e : Epoch} (he : o.epoch = some e) (v : ℝ) :
    setEpoch (some m) o (some v) = ⟨matrixRotate o.pos (m e (.flt v)), some (.flt v)⟩ := by
  simp [setEpoch, he, transformToEpoch]

/-- C140: when an assignment to `epoch` only relabels: on an object without an epoch, when None is assigned, for the inertial classes, and
through `jdepoch`.  The label is what was assigned. -/
theorem label_only (k : Kind) (o : Obj) (v : ℝ) (jd : ℝ) (j : Bool) :
    (setEpoch k o none = ⟨o.pos, none⟩) ∧
    (setEpoch k (setEpoch k o none) (some v) = ⟨o.pos, some (.flt v)⟩) ∧
    (setEpoch none o (some v) = ⟨o.pos, some (.flt v)⟩) ∧
    ((setJdepoch j o jd).pos = o.pos ∧ getJdepoch j (setJdepoch j o jd) = some jd) := by
  refine ⟨rfl, rfl, ?_, rfl, ?_⟩
  · cases he : o.epoch <;> simp [setEpoch, he, transformToEpoch]
  · simp only [getJdepoch, setJdepoch, Option.map_some, Option.some.injEq, epochToJd, jdToEpoch]
    cases j <;> simp only [if_true, Bool.false_eq_true, if_false] <;> split_ifs with h <;> simp only [Epoch.val]
    · rw [h]; ring
    · ring
    · rw [h]; ring
    · ring

/-- Every epoch in the history satisfies `P`. -/
def AllEpochs (P : Epoch → Prop) (o : Obj) (vs : List ℝ) : Prop := (∀ e, o.epoch = some e → P e) ∧ ∀ v ∈ vs, P (.flt v)

/-- C140: for a class whose epoch change goes through a fixed frame (matrix to the new epoch after the inverse of that of the old one),
any sequence of epochs ends exactly where the direct change to the last one would. -/
theorem history_path_independent (D : Epoch → M3) (P : Epoch → Prop) (hD : ∀ e, P e → IsRotation (D e)) :
    ∀ (vs : List ℝ) (o : Obj) (e : Epoch), WF o.pos → o.epoch = some e → AllEpochs P o vs →
      let o' := vs.foldl (fun o v => setEpoch (some fun old new => D new * (D old).transpose) o (some v)) o
      o'.epoch = some ((vs.map Epoch.flt).getLastD e) ∧ WF o'.pos ∧
      dir o'.pos = act (D ((vs.map Epoch.flt).getLastD e) * (D e).transpose) (dir o.pos) := by
  intro vs
  induction vs with
  | nil =>
    intro o e hw he hP
    refine ⟨he, hw, ?_⟩
    have := (hD e (hP.1 e he)).2.1
    simp only [List.map_nil, List.getLastD_nil, this, act_one, List.foldl_nil]
  | cons v vs ih =>
    intro o e hw he hP
    have hve := hP.2 v (by simp)
    have hst := setEpoch_some (fun old new => D new * (D old).transpose) he v
    have hrot : IsRotation (D (.flt v) * (D e).transpose) := isRot_mul (hD _ hve) (isRot_transpose (hD e (hP.1 e he)))
    obtain ⟨h1, h2, h3⟩ := ih (setEpoch (some fun old new => D new * (D old).transpose) o (some v)) (.flt v)
      (setEpoch_wf _ hw _) (by rw [hst]) ⟨by rw [hst]; rintro x hx; simp at hx; rw [← hx]; exact hve,
        fun u hu => hP.2 u (by simp [hu])⟩
    have hl : ((v :: vs).map Epoch.flt).getLastD e = (vs.map Epoch.flt).getLastD (.flt v) := by
      cases vs <;> simp [List.getLastD]
    simp only [List.foldl_cons]
    rw [hl]
    refine ⟨h1, h2, h3.trans ?_⟩
    rw [hst]
    simp only
    rw [matrixRotate_dir hw (isRot_orth hrot), act_act, Matrix.mul_assoc, ← Matrix.mul_assoc (D (.flt v)).transpose,
      (hD _ hve).1, Matrix.one_mul]

/-- C140: the same for the intermediate (CIRS) and terrestrial (ITRS) frames as the code defines them; coming back to the first epoch
restores the direction. -/
theorem cirs_itrs_history (S : Series) (vs : List ℝ) (o : Obj) (r : ℝ) (hw : WF o.pos) (he : o.epoch = some (.flt r)) :
    ((∀ v ∈ vs, Upright S (.flt v)) → Upright S (.flt r) →
      dir ((vs ++ [r]).foldl (fun o v => setEpoch (kindCirs S) o (some v)) o).pos = dir o.pos) ∧
    dir ((vs ++ [r]).foldl (fun o v => setEpoch (kindItrs S) o (some v)) o).pos = dir o.pos := by
  have hl : ((vs ++ [r]).map Epoch.flt).getLastD (.flt r) = .flt r := by simp
  constructor
  · intro h1 h2
    have := (history_path_independent (fun e => cMatrix S (some e)) (Upright S)
      (fun e h => cioMatrix_isRot (bottom_unit (npb_isRot S e)) h) (vs ++ [r]) o (.flt r) hw he
      ⟨fun e h => by rw [he] at h; cases h; exact h2, fun v hv => by
        rcases List.mem_append.1 hv with h | h
        · exact h1 v h
        · rw [List.mem_singleton.1 h]; exact h2⟩).2.2
    simp only [hl] at this
    refine this.trans ?_
    rw [(cioMatrix_isRot (bottom_unit (npb_isRot S (.flt r))) h2).2.1 |> fun h => (show cMatrix S (some (.flt r)) *
      (cMatrix S (some (.flt r))).transpose = 1 from h), act_one]
  · have := (history_path_independent (wMatrix S) (fun _ => True) (fun e _ => wMatrix_isRot S e) (vs ++ [r]) o (.flt r) hw he
      ⟨fun _ _ => trivial, fun _ _ => trivial⟩).2.2
    simp only [hl] at this
    refine this.trans ?_
    rw [(wMatrix_isRot S (.flt r)).2.1, act_one]

/-- C140: two objects of one class with the same epoch keep the same epoch and their separation through any history of epoch
assignments. -/
theorem history_keeps_separation (k : Kind) (hk : Rotating k) (j : Bool) (ops : List Op) (o p : Obj) (ho : WF o.pos) (hp : WF p.pos)
    (he : o.epoch = p.epoch) :
    (ops.foldl (step k j) o).epoch = (ops.foldl (step k j) p).epoch ∧
    sub (ops.foldl (step k j) o).pos (ops.foldl (step k j) p).pos = sub o.pos p.pos := by
  induction ops generalizing o p with
  | nil => exact ⟨he, rfl⟩
  | cons op ops ih =>
    have h1 : (step k j o op).epoch = (step k j p op).epoch ∧ sub (step k j o op).pos (step k j p op).pos = sub o.pos p.pos := by
      cases op with
      | jdepoch jd => exact ⟨rfl, rfl⟩
      | epoch v =>
        cases v with
        | none => exact ⟨rfl, rfl⟩
        | some v =>
          cases hoe : o.epoch with
          | none =>
            have hpe : p.epoch = none := by rw [← he, hoe]
            simp [step, setEpoch, hoe, hpe]
          | some e =>
            have hpe : p.epoch = some e := by rw [← he, hoe]
            cases k with
            | none => simp [step, setEpoch, hoe, hpe, transformToEpoch]
            | some m =>
              simp only [step]
              rw [setEpoch_some m hoe, setEpoch_some m hpe]
              exact ⟨rfl, matrixRotate_separation ho hp (isRot_orth (hk e (.flt v)))⟩
    obtain ⟨a, b⟩ := ih (step k j o op) (step k j p op) (step_wf k j ho op) (step_wf k j hp op) h1.1
    exact ⟨a, b.trans h1.2⟩

/-- The built-in classes that rotate with the epoch and need no assumption. -/
theorem builtin_rotating (S : Series) : Rotating none ∧ Rotating (kindItrs S) ∧ Rotating (kindEquinox S) ∧ Rotating kindFk5 ∧
    Rotating kindFk4 ∧ ((∀ e, Upright S e) → Rotating (kindCirs S)) :=
  ⟨trivial, fun a b => isRot_mul (wMatrix_isRot S b) (isRot_transpose (wMatrix_isRot S a)),
    fun a b => isRot_mul (isRot_mul (nutation_isRot S b) (precCapitaine_isRot b))
      (isRot_mul (nutation_isRot S a) (isRot_transpose (precCapitaine_isRot a))),
    precJ_isRot, precB_isRot,
    fun h a b => isRot_mul (cioMatrix_isRot (bottom_unit (npb_isRot S b)) (h b))
      (isRot_transpose (cioMatrix_isRot (bottom_unit (npb_isRot S a)) (h a)))⟩

/-- C140: assigning the epoch an object already has leaves every direction of the class alone exactly when the class's matrix for that
pair of epochs is the identity. -/
theorem reassign_iff (m : Epoch → Epoch → M3) (hm : ∀ a b, IsRotation (m a b)) (r : ℝ) {rng : Option Range} (hr : FullTurn rng) :
    (∀ c, WF c → c.long.range = rng → dir (setEpoch (some m) ⟨c, some (.flt r)⟩ (some r)).pos = dir c) ↔ m (.flt r) (.flt r) = 1 := by
  constructor
  · intro h
    apply act_ext hr
    intro c hc hcr
    have := h c hc hcr
    rw [setEpoch_some m rfl] at this
    simp only at this
    rwa [matrixRotate_dir hc (isRot_orth (hm _ _)), ← act_one (dir c), act_act, Matrix.mul_one] at this
  · intro h c hc _
    rw [setEpoch_some m rfl]
    simp only
    rw [matrixRotate_dir hc (isRot_orth (hm _ _)), h, act_one]

/-- C140: FK5 and FK4 coordinates do not move when they are assigned the epoch they have. -/
theorem fk_reassign (o : Obj) (r : ℝ) (hw : WF o.pos) (he : o.epoch = some (.flt r)) :
    dir (setEpoch kindFk5 o (some r)).pos = dir o.pos ∧ dir (setEpoch kindFk4 o (some r)).pos = dir o.pos := by
  constructor
  · unfold kindFk5
    rw [setEpoch_some precJ he]; simp only
    rw [matrixRotate_dir hw (isRot_orth (precJ_isRot _ _)), (no_precession _).1, act_one]
  · unfold kindFk4
    rw [setEpoch_some precB he]; simp only
    rw [matrixRotate_dir hw (isRot_orth (precB_isRot _ _)), (no_precession _).2.1, act_one]

/-- The matrix of the equinox class for two equal epochs at J2000 is the square of the nutation matrix. -/
theorem equinox_square (S : Series) : (nutation S (.flt 2000) * precCapitaine (.flt 2000)) *
    (nutation S (.flt 2000) * (precCapitaine (.flt 2000)).transpose) = nutation S (.flt 2000) * nutation S (.flt 2000) := by
  rw [(no_precession (.flt 2000)).2.2.1, Matrix.mul_one, Matrix.transpose_one, Matrix.mul_one]

/-- C140: the mean-equinox class applies the nutation of the old epoch instead of undoing it: assigning J2000 to an object already at
J2000 turns it by the nutation twice, which is the identity for no nutation in longitude between 0 and π (with none in obliquity). -/
theorem equinox_moves (S : Series) {ε δ : ℝ} (hn : S.nut 2000 = (ε, δ, 0)) (h0 : 0 < δ) (h1 : δ < π) {rng : Option Range}
    (hr : FullTurn rng) :
    ¬ ∀ c, WF c → c.long.range = rng → dir (setEpoch (kindEquinox S) ⟨c, some (.flt 2000)⟩ (some 2000)).pos = dir c := by
  intro h
  have h2 := (reassign_iff _ (builtin_rotating S).2.2.1 2000 hr).1 h
  rw [equinox_square] at h2
  have hN : nutation S (.flt 2000) = rotR (-ε) .ex * rotR (-δ) .ez * rotR ε .ex := by
    unfold nutation
    rw [show (Epoch.flt 2000).val = 2000 from rfl, hn]; simp
  rw [hN] at h2
  have hx : rotR ε .ex * rotR (-ε) .ex = 1 := by
    rw [← rotR_add _ _ (axis := .ex) trivial, add_neg_cancel, rotR_zero (axis := .ex) trivial]
  have hx' : rotR (-ε) .ex * rotR ε .ex = 1 := by
    rw [← rotR_add _ _ (axis := .ex) trivial, neg_add_cancel, rotR_zero (axis := .ex) trivial]
  have h3 : rotR (-δ) .ez * rotR (-δ) .ez = 1 := by
    calc rotR (-δ) .ez * rotR (-δ) .ez
        = (rotR ε .ex * rotR (-ε) .ex) * rotR (-δ) .ez * (rotR ε .ex * rotR (-ε) .ex) * rotR (-δ) .ez * (rotR ε .ex * rotR (-ε) .ex) := by
          rw [hx]; simp
      _ = rotR ε .ex * ((rotR (-ε) .ex * rotR (-δ) .ez * rotR ε .ex) * (rotR (-ε) .ex * rotR (-δ) .ez * rotR ε .ex)) * rotR (-ε) .ex := by
          simp only [Matrix.mul_assoc]
      _ = 1 := by rw [h2, Matrix.mul_one, hx]
  rw [← rotR_add _ _ (axis := .ez) trivial, rotR_z] at h3
  have hs := congrFun (congrFun h3 0) 1
  have hc := congrFun (congrFun h3 0) 0
  simp at hs hc
  rw [show -δ + -δ = -(2 * δ) by ring, sin_neg] at hs
  rw [show -δ + -δ = -(2 * δ) by ring, cos_neg] at hc
  have : cos (2 * δ) < 1 := by
    have hsd : 0 < sin δ := sin_pos_of_pos_of_lt_pi h0 h1
    rw [cos_two_mul, cos_sq']; nlinarith
  linarith

/-- C140: `jdepoch` stores a whole year as an int; every matrix of every class depends on the value of the epochs only, not on
whether they are held as ints or as floats. -/
theorem int_epoch_as_float (S : Series) (a a' b b' : Epoch) (ha : a.val = a'.val) (hb : b.val = b'.val) :
    precJ a b = precJ a' b' ∧ precB a b = precB a' b' ∧ precCapitaine a = precCapitaine a' ∧ npb S a = npb S a' ∧
    (∀ k ∈ [kindCirs S, kindItrs S, kindEquinox S, kindFk5, kindFk4], ∃ m, k = some m ∧ m a b = m a' b') ∧
    cMatrix S (some a) = cMatrix S (some a') ∧ equinoxMatrix S (some a) = equinoxMatrix S (some a') ∧
    equinoxToCirs S (some a) = equinoxToCirs S (some a') ∧ itrsFromCirs S (some a) = itrsFromCirs S (some a') ∧
    itrsFromEquinox S (some a) = itrsFromEquinox S (some a') ∧ fk5FromIcrs (some a) = fk5FromIcrs (some a') ∧
    fk4ToFk5 (some a) = fk4ToFk5 (some a') ∧ galFromFk5 (some a) = galFromFk5 (some a') ∧ galFromFk4 (some a) = galFromFk4 (some a') ∧
    (∀ n, eclipticFromEq n a = eclipticFromEq n a' ∧ eclipticToEq n a = eclipticToEq n a') := by
  have hnut : nutation S a = nutation S a' := by simp [nutation, ha]
  have hnutb : nutation S b = nutation S b' := by simp [nutation, hb]
  have hP : precCapitaine a = precCapitaine a' := by simp [precCapitaine, ha]
  have hPb : precCapitaine b = precCapitaine b' := by simp [precCapitaine, hb]
  have hJ : precJ a b = precJ a' b' := by simp [precJ, centuries, ha, hb]
  have hB : precB a b = precB a' b' := by simp [precB, ha, hb]
  have hN : npb S a = npb S a' := by simp [npb, hnut, hP]
  have hNb : npb S b = npb S b' := by simp [npb, hnutb, hPb]
  have hC : cMatrix S (some a) = cMatrix S (some a') := by simp [cMatrix, cioLocator, centuries, hN, ha]
  have hCb : cMatrix S (some b) = cMatrix S (some b') := by simp [cMatrix, cioLocator, centuries, hNb, hb]
  have hW : wMatrix S a = wMatrix S a' := by simp [wMatrix, centuries, ha]
  have hWb : wMatrix S b = wMatrix S b' := by simp [wMatrix, centuries, hb]
  refine ⟨hJ, hB, hP, hN, ?_, hC, ?_, ?_, ?_, ?_, ?_, ?_, ?_, ?_, ?_⟩
  · intro k hk
    fin_cases hk
    · exact ⟨_, rfl, by simp only [hC, hCb]⟩
    · exact ⟨_, rfl, by simp only [hW, hWb]⟩
    · exact ⟨_, rfl, by simp only [hnut, hnutb, hP, hPb]⟩
    · exact ⟨_, rfl, hJ⟩
    · exact ⟨_, rfl, hB⟩
  · simp [equinoxMatrix, hN]
  · simp [equinoxToCirs, ha]
  · simp [itrsFromCirs, hW, ha]
  · simp [itrsFromEquinox, hW, ha]
  · simp [fk5FromIcrs, precJ, centuries, ha]
  · simp [fk4ToFk5, precB, ha]
  · simp [galFromFk5, precJ, centuries, ha]
  · simp [galFromFk4, precB, ha]
  · intro n; simp [eclipticFromEq, eclipticToEq, ha]

/-- C140: a whole year set through `jdepoch` is stored as an int; by the theorem above it behaves as the float would, at J1950 for
instance. -/
theorem whole_year_jdepoch : (∀ j (y : ℤ), jdToEpoch j (epochToJd j y) = .int y) ∧
    precJ (.int 2000) (.int 1950) = precJ (.flt 2000) (.flt 1950) := by
  constructor
  · intro j y
    have h : ∀ j, (if j = true then (2000 : ℝ) + (epochToJd j y - 2451545) / 365.25
        else 1900 + (epochToJd j y - 2415020.31352) / 365.242198781) = y := by
      intro j; cases j
      · simp only [Bool.false_eq_true, if_false, epochToJd]; ring
      · simp only [if_true, epochToJd]; ring
    unfold jdToEpoch
    simp only [h, Int.floor_intCast, if_true]
  · simp [precJ, centuries, Epoch.val]

/-! ## C141: conversions -/

/-- The position a fresh object of the target class takes over. -/
theorem taken_over {r : Option Range} (hr : FullTurn r) {c : LL} (h : WF c) :
    WF (setLong (setLat (fresh r) c.lat.val) c.long.val) ∧ dir (setLong (setLat (fresh r) c.lat.val) c.long.val) = dir c := by
  refine ⟨setLong_wf (setLat_wf (fresh_wf hr) _) _, ?_⟩
  exact (construct_dir hr c.long.val c.lat.val h.latMem.1 h.latMem.2).2.2

theorem smatrix_dir {cls : Cls} (hc : FullTurn cls.longrange) {o : Obj} (h : WF o.pos) {m : M3} (hm : IsRotation m) :
    WF (smatrix cls.longrange cls.default m o).pos ∧ dir (smatrix cls.longrange cls.default m o).pos = act m (dir o.pos) ∧
    (smatrix cls.longrange cls.default m o).epoch = cls.default := by
  obtain ⟨h1, h2⟩ := taken_over hc h
  refine ⟨matrixRotate_wf h1 m, ?_, rfl⟩
  show dir (matrixRotate _ m) = _
  rw [matrixRotate_dir h1 (isRot_orth hm), h2]

/-- The product of the matrices along a path, each at the epoch of the object it is called on: the original's for the first leg, the
default of the class just reached for the others. -/
def chain : Option Epoch → List Leg → M3
  | _, [] => 1
  | e, l :: ls => chain l.target.default ls * l.mat e

/-- A leg between well-formed classes with rotations. -/
def GoodLeg (l : Leg) : Prop := FullTurn l.target.longrange ∧ ∀ e, IsRotation (l.mat e)

theorem chain_isRot : ∀ (ls : List Leg) (e : Option Epoch), (∀ l ∈ ls, GoodLeg l) → IsRotation (chain e ls)
  | [], _, _ => isRot_one
  | l :: ls, e, h => isRot_mul (chain_isRot ls _ fun x hx => h x (by simp [hx])) ((h l (by simp)).2 e)

/-- C141: what a conversion along any path does: the direction is turned by the product of the legs' matrices, where every leg after the
first is evaluated at the default epoch of the class it starts from, not at the epoch of the coordinate; the result is labelled with the
coordinate's epoch. -/
theorem convert_exact (ls : List Leg) (o : Obj) (h : WF o.pos) (hl : ∀ l ∈ ls, GoodLeg l) :
    (convert o ls).epoch = o.epoch ∧ WF (convert o ls).pos ∧ dir (convert o ls).pos = act (chain o.epoch ls) (dir o.pos) := by
  refine ⟨rfl, ?_⟩
  show WF (follow o ls).pos ∧ dir (follow o ls).pos = _
  induction ls generalizing o with
  | nil => exact ⟨h, by simp [follow, chain, act_one]⟩
  | cons l ls ih =>
    obtain ⟨h1, h2, h3⟩ := smatrix_dir (cls := l.target) (hl l (by simp)).1 h ((hl l (by simp)).2 o.epoch)
    obtain ⟨a, b⟩ := ih _ h1 (fun x hx => hl x (by simp [hx]))
    refine ⟨a, b.trans ?_⟩
    rw [h2, h3, act_act]; rfl

/-- C141: a direct conversion and back (by the transposed matrix) restores direction and epoch, at every epoch. -/
theorem direct_round_trip (A B : Cls) (hA : FullTurn A.longrange) (hB : FullTurn B.longrange) (m : Option Epoch → M3)
    (hm : ∀ e, IsRotation (m e)) (o : Obj) (h : WF o.pos) :
    let o' := convert (convert o [⟨B, m⟩]) [⟨A, fun e => (m e).transpose⟩]
    o'.epoch = o.epoch ∧ dir o'.pos = dir o.pos := by
  obtain ⟨e1, w1, d1⟩ := convert_exact [⟨B, m⟩] o h (by simpa [GoodLeg] using ⟨hB, hm⟩)
  obtain ⟨e2, w2, d2⟩ := convert_exact [⟨A, fun e => (m e).transpose⟩] (convert o [⟨B, m⟩]) w1
    (by simpa [GoodLeg] using ⟨hA, fun e => isRot_transpose (hm e)⟩)
  refine ⟨e2.trans e1, ?_⟩
  rw [d2, d1, act_act, e1]
  simp only [chain, Matrix.one_mul]
  rw [(hm _).1, act_one]

/-- C141: separations survive every conversion along a path of rotations, for two coordinates of the same class and epoch. -/
theorem convert_separation (ls : List Leg) (o p : Obj) (ho : WF o.pos) (hp : WF p.pos) (he : o.epoch = p.epoch)
    (hl : ∀ l ∈ ls, GoodLeg l) : sub (convert o ls).pos (convert p ls).pos = sub o.pos p.pos := by
  rw [separation_eq_angle, separation_eq_angle, (convert_exact ls o ho hl).2.2, (convert_exact ls p hp hl).2.2, he]
  have hm := isRot_orth (chain_isRot ls p.epoch hl)
  unfold InnerProductGeometry.angle
  rw [inner_act hm, norm_act hm, norm_act hm]

/-- The path from galactic coordinates through FK5 to ICRS. -/
def galToIcrs : List Leg := [⟨eqCls, fun e => (galFromFk5 e).transpose⟩, ⟨eqCls, fun e => (fk5FromIcrs e).transpose⟩]

theorem eqCls_full : FullTurn eqCls.longrange := .inr ⟨_, rfl, by simp, rfl⟩

/-- C141: converting galactic coordinates of epoch `e` to ICRS in one call agrees with converting to FK5 and then to ICRS exactly when
there is no precession between J2000 and `e`; without an epoch it always agrees. -/
theorem gal_to_icrs_iff (e : Epoch) :
    ((∀ o : Obj, WF o.pos → o.epoch = some e → o.pos.long.range = galCls.longrange →
      dir (convert o galToIcrs).pos = dir (convert (convert o (galToIcrs.take 1)) (galToIcrs.drop 1)).pos) ↔ precJ (.int 2000) e = 1) ∧
    (∀ o : Obj, WF o.pos → o.epoch = none →
      dir (convert o galToIcrs).pos = dir (convert (convert o (galToIcrs.take 1)) (galToIcrs.drop 1)).pos) := by
  have hb : IsRotation fk5Bias := three_isRot _ _ _ trivial trivial trivial
  have hf : ∀ e, IsRotation (fk5FromIcrs e) := fun e => by
    cases e with
    | none => exact hb
    | some x => exact isRot_mul (precJ_isRot _ x) hb
  have hg : ∀ e, IsRotation (galFromFk5 e) := fun e => isRot_mul (galPole_isRot _ _ _) (precJ_isRot _ _)
  have l1 : GoodLeg ⟨eqCls, fun e => (galFromFk5 e).transpose⟩ := ⟨eqCls_full, fun e => isRot_transpose (hg e)⟩
  have l2 : GoodLeg ⟨eqCls, fun e => (fk5FromIcrs e).transpose⟩ := ⟨eqCls_full, fun e => isRot_transpose (hf e)⟩
  have hL : ∀ l ∈ galToIcrs, GoodLeg l := by
    intro l hl
    rcases List.mem_cons.1 hl with rfl | hl
    · exact l1
    · rcases List.mem_cons.1 hl with rfl | hl
      · exact l2
      · simp at hl
  have h2000 : fk5FromIcrs (some (.flt 2000)) = fk5Bias := by
    have : precJ (.int 2000) (.flt 2000) = 1 := by
      unfold precJ
      have h1 : centuries (.flt 2000) (.int 2000) = 0 := by simp [centuries, Epoch.val]
      have h3 : centuries (.int 2000) (.int 2000) = 0 := by simp [centuries]
      rw [h1, h3]
      simp [fk5Angles, rot_zero (axis := .ez) trivial, rot_zero (axis := .ey) trivial]
    simp [fk5FromIcrs, this]
  have key : ∀ o : Obj, WF o.pos →
      dir (convert o galToIcrs).pos = act (fk5Bias.transpose * (galFromFk5 o.epoch).transpose) (dir o.pos) ∧
      dir (convert (convert o (galToIcrs.take 1)) (galToIcrs.drop 1)).pos =
        act ((fk5FromIcrs o.epoch).transpose * (galFromFk5 o.epoch).transpose) (dir o.pos) := by
    intro o ho
    obtain ⟨-, -, d⟩ := convert_exact galToIcrs o ho hL
    obtain ⟨e1, w1, d1⟩ := convert_exact (galToIcrs.take 1) o ho (fun l hl => hL l (List.mem_of_mem_take hl))
    obtain ⟨e2, w2, d2⟩ := convert_exact (galToIcrs.drop 1) _ w1 (fun l hl => hL l (List.mem_of_mem_drop hl))
    refine ⟨?_, ?_⟩
    · rw [d]; simp [chain, galToIcrs, eqCls, h2000]
    · rw [d2, d1, act_act, e1]; simp [chain, galToIcrs]
  refine ⟨⟨?_, ?_⟩, ?_⟩
  · intro h
    have hfull : FullTurn galCls.longrange := .inr ⟨_, rfl, by simp, rfl⟩
    have : fk5Bias.transpose * (galFromFk5 (some e)).transpose = (fk5FromIcrs (some e)).transpose * (galFromFk5 (some e)).transpose := by
      apply act_ext hfull
      intro c hc hcr
      have := h ⟨c, some e⟩ hc rfl hcr
      rwa [(key ⟨c, some e⟩ hc).1, (key ⟨c, some e⟩ hc).2] at this
    have h2 : fk5Bias.transpose = (fk5FromIcrs (some e)).transpose := by
      have := congrArg (· * galFromFk5 (some e)) this
      simpa only [Matrix.mul_assoc, (hg (some e)).1, Matrix.mul_one] using this
    have h3 : fk5Bias = precJ (.int 2000) e * fk5Bias := by
      have := congrArg Matrix.transpose h2; simpa [fk5FromIcrs] using this
    have := congrArg (· * fk5Bias.transpose) h3
    simp only [Matrix.mul_assoc, hb.2.1, Matrix.mul_one] at this
    exact this.symm
  · intro h o ho hoe _
    rw [(key o ho).1, (key o ho).2, hoe]
    simp [fk5FromIcrs, h]
  · intro o ho hoe
    rw [(key o ho).1, (key o ho).2, hoe]
    simp [fk5FromIcrs]

/-- C141: they disagree at J2100, for instance. -/
theorem gal_to_icrs_wrong : precJ (.int 2000) (.flt 2100) ≠ 1 := by
  intro h
  have h1 : centuries (.flt 2100) (.int 2000) = 1 := by simp [centuries, Epoch.val]; norm_num
  have h3 : centuries (.int 2000) (.int 2000) = 0 := by simp [centuries]
  have e : precJ (.int 2000) (.flt 2100) 2 2 = cos ((fk5Angles 0 1).2.1 * π / 180) := by
    unfold precJ; rw [h1, h3]; exact (euler_entries _ _ _).2.2.2
  rw [h] at e
  have e2 : cos ((fk5Angles 0 1).2.1 * π / 180) = cos (0 * π / 180) := by rw [← e]; simp
  have := cos_deg_inj (by simp only [fk5Angles]; norm_num) (by simp only [fk5Angles]; norm_num) le_rfl (by norm_num) e2
  revert this
  simp only [fk5Angles]; norm_num

end

end Verif.Frames

import Verif.SpectrumProps

/-!
# Spectra: temporary unit changes, continuum operations, shapes, construction (C68-C71)
-/

namespace Verif.Spectrum

variable {K : Type} [Field K] [LinearOrder K] [IsStrictOrderedRing K]

/-! ## getUnitFlux and nflux -/

theorem zipWith_fst_len (k : Consts K) (o n : Unit K) (x f : List K) (h : f.length = x.length) :
    (List.zipWith (fun x y => (xftrans k o n x y).1) x f).length = x.length := by simp [h]

/-- The spectrum after a successful or failing unit assignment keeps everything but unit and arrays. -/
theorem setUnit_contop (k : Consts K) (s : Spec K) (str : Str) : (setUnit k s str).1.contop = s.contop ∧ (setUnit k s str).1.z = s.z := by
  unfold setUnit
  cases hu : strToUnit k str with
  | error e => exact ⟨rfl, rfl⟩
  | ok u =>
    simp only
    split
    · exact ⟨rfl, rfl⟩
    · cases ha : applyUnits k s s.unit u with
      | error e => exact ⟨rfl, rfl⟩
      | ok s' =>
        have := applyUnits_ok k ha
        exact ⟨by rw [this.1, this.2.1], this.2.2.2.1⟩

/-- What a unit assignment does to the continuum. -/
theorem setUnit_cont (k : Consts K) {s : Spec K} (hs : WF k s) (str : Str) (hc : ContFits s) :
    (setUnit k s str).1 = s ∨
    (s.contop = none ∧ (s.cont = .none ∨ ∃ f, s.cont = .model f) ∧ (setUnit k s str).1.cont = .none) ∨
    (s.contop = none ∧ ∃ v v', s.cont = .arr v ∧ (setUnit k s str).1.cont = .arr v' ∧ v'.length = s.x.length ∧
      List.zipWith (· * ·) (setUnit k s str).1.x v' = List.zipWith (· * ·) s.x v) := by
  unfold setUnit
  cases hu : strToUnit k str with
  | error e => exact .inl rfl
  | ok u =>
    simp only
    split
    · exact .inl rfl
    · cases ha : applyUnits k s s.unit u with
      | error e => exact .inl rfl
      | ok s' =>
        right
        have h0 := applyUnits_ok k ha
        have ho := (wf_scale k hs).2
        have hn' := units_scale_pos k _ (strToUnit_mem k str _ hu)
        unfold applyUnits at ha
        simp only [h0.1, Option.isSome_none, Bool.false_eq_true, if_false] at ha
        cases hcont : s.cont with
        | none => left; simp only [hcont, Except.ok.injEq] at ha; subst ha; simp [h0.1]
        | model f => left; simp only [hcont, Except.ok.injEq] at ha; subst ha; simp [h0.1]
        | arr v =>
          right
          have hl := hc v hcont
          simp only [hcont, hl, if_true, Except.ok.injEq] at ha
          subst ha
          refine ⟨h0.1, v, _, rfl, rfl, by simp [hl], ?_⟩
          simp only
          apply List.ext_getElem
          · simp [hl, hs.flen]
          · intro i h1 h2
            have hi : i < v.length := by simp at h2; exact h2.2
            simp only [List.getElem_zipWith]
            rw [xftrans_fst k s.unit u _ _ v[i]]
            exact xftrans_light k ho hn' (hs.nz _ (List.getElem_mem _)) _

theorem setUnit_fits (k : Consts K) {s : Spec K} (hs : WF k s) (hc : ContFits s) (str : Str) : ContFits (setUnit k s str).1 := by
  have hl : (setUnit k s str).1.x.length = s.x.length := by
    have := (setUnit_light k hs str).2.1
    simpa using congrArg List.length this
  rcases setUnit_cont k hs str hc with h | ⟨_, _, h⟩ | ⟨_, v, v', hv, h, hl', _⟩
  · rw [h]; exact hc
  · intro w hw; rw [h] at hw; cases hw
  · intro w hw
    rw [h] at hw
    cases hw
    rw [hl, hl']

theorem spec_ext {s t : Spec K} (h1 : s.unit = t.unit) (h2 : s.x = t.x) (h3 : s.flux = t.flux) (h4 : s.err = t.err) (h5 : s.cont = t.cont)
    (h6 : s.contop = t.contop) (h7 : s.z = t.z) : s = t := by
  cases s; cases t; simp_all

/-- C68: `getUnitFlux` does not change the spectrum, and gives the arrays the spectrum would have in the other unit, if the continuum is not
a callable and the unit of the spectrum is not THz or eV. -/
theorem getUnitFlux_pure (k : Consts K) {s : Spec K} (hs : WF k s) (hc : ContFits s) (hm : ∀ f, s.cont ≠ .model f)
    (hu : s.unit.name ≠ "THz".toList ∧ s.unit.name ≠ "eV".toList) (str : Str) :
    (getUnitFlux k s str).2 = s ∧
    (getUnitFlux k s str).1 = match (setUnit k s str).2 with
      | some e => .error e
      | none => .ok ((setUnit k s str).1.x, (setUnit k s str).1.flux, (setUnit k s str).1.err) := by
  have hread : strToUnit k s.unit.str = .ok s.unit := by
    rw [unit_string_readable k _ (wf_scale k hs).1, if_neg (by tauto)]
  have h1 := setUnit_light k hs str
  have hf1 := setUnit_fits k hs hc str
  -- the second assignment
  have key : setUnit k (setUnit k s str).1 s.unit.str = (s, none) := by
    have heff := setUnit_effect k h1.1 hf1 hread
    have hco : (setUnit k s str).1.contop = none ∨ s.unit = (setUnit k s str).1.unit := by
      rcases setUnit_cont k hs str hc with h | ⟨h, _⟩ | ⟨h, _⟩
      · right; rw [h]
      · left; rw [(setUnit_contop k s str).1, h]
      · left; rw [(setUnit_contop k s str).1, h]
    obtain ⟨hn, hun⟩ := heff.1 hco
    have h2 := setUnit_light k h1.1 s.unit.str
    have hd := light_determines k hs h2.1 (h1.2.trans h2.2) (by rw [hun])
    have hcontop : (setUnit k (setUnit k s str).1 s.unit.str).1.contop = s.contop := by
      rw [(setUnit_contop k _ _).1, (setUnit_contop k _ _).1]
    have hz : (setUnit k (setUnit k s str).1 s.unit.str).1.z = s.z := by
      rw [(setUnit_contop k _ _).2, (setUnit_contop k _ _).2]
    have hcont : (setUnit k (setUnit k s str).1 s.unit.str).1.cont = s.cont := by
      rcases setUnit_cont k hs str hc with h | ⟨_, hcc, h⟩ | ⟨_, v, v', hv, h, hl', hlight⟩
      · have : setUnit k (setUnit k s str).1 s.unit.str = setUnit k s s.unit.str := by rw [h]
        rw [this]
        unfold setUnit
        rw [hread]
        simp
      · have hnone : s.cont = .none := by
          rcases hcc with hcc | ⟨f, hcc⟩
          · exact hcc
          · exact absurd hcc (hm f)
        rw [hnone]
        rcases setUnit_cont k h1.1 s.unit.str hf1 with g | ⟨_, _, g⟩ | ⟨_, w, w', hw, _⟩
        · rw [g, h]
        · exact g
        · rw [h] at hw; cases hw
      · rcases setUnit_cont k h1.1 s.unit.str hf1 with g | ⟨_, hcc, _⟩ | ⟨_, w, w', hw, g, gl, glight⟩
        · -- the first assignment must have been the identity on the unit, so the arrays agree
          rw [g, h, hv]
          have hx : (setUnit k s str).1.x = s.x := by rw [← hd.2.1, g]
          rw [hx] at hlight
          congr 1
          have hlv := hc v hv
          apply List.ext_getElem
          · rw [hl', hlv]
          · intro i hi hi'
            have hix : i < s.x.length := hlv ▸ hi'
            have := List.getElem_of_eq hlight (i := i) (by simp [hl', hix])
            simp only [List.getElem_zipWith] at this
            exact mul_left_cancel₀ (hs.nz _ (List.getElem_mem _)) this
        · rw [h] at hcc
          rcases hcc with hcc | ⟨f, hcc⟩ <;> cases hcc
        · rw [h] at hw
          cases hw
          rw [g, hv]
          congr 1
          have hlv := hc v hv
          rw [hd.2.1] at glight
          have hx1 : (setUnit k s str).1.x.length = s.x.length := by
            simpa using congrArg List.length h1.2.1
          apply List.ext_getElem
          · rw [gl, hx1, hlv]
          · intro i hi hi'
            have hix : i < s.x.length := hlv ▸ hi'
            have := List.getElem_of_eq (glight.trans hlight) (i := i) (by simp [gl, hx1, hix])
            simp only [List.getElem_zipWith] at this
            exact mul_left_cancel₀ (hs.nz _ (List.getElem_mem _)) this
    have : (setUnit k (setUnit k s str).1 s.unit.str).1 = s := spec_ext hd.1 hd.2.1 hd.2.2.1 hd.2.2.2 hcont hcontop hz
    exact Prod.ext this hn
  unfold getUnitFlux
  simp only [key]
  exact ⟨trivial, rfl⟩

/-- C68 fails for spectra in eV or THz: `getUnitFlux` always raises ValueError, and if the other unit was accepted the spectrum stays in
it. -/
theorem getUnitFlux_stuck (k : Consts K) {s : Spec K} (hs : WF k s) (hc : ContFits s)
    (hu : s.unit.name = "THz".toList ∨ s.unit.name = "eV".toList) (str : Str) :
    getUnitFlux k s str = (.error .value, (setUnit k s str).1) := by
  have hread : strToUnit k s.unit.str = .error .value := by
    rw [unit_string_readable k _ (wf_scale k hs).1, if_pos hu]
  unfold getUnitFlux
  have : setUnit k (setUnit k s str).1 s.unit.str = ((setUnit k s str).1, some .value) := by
    generalize (setUnit k s str).1 = t
    unfold setUnit
    rw [hread]
  simp only [this]

/-- C68: a callable continuum is lost. -/
theorem getUnitFlux_loses_model (k : Consts K) {s : Spec K} (hs : WF k s) (hc : s.contop = none) {f : K → K} (hm : s.cont = .model f)
    {str : Str} {u : Unit K} (hu : strToUnit k str = .ok u) (hne : u ≠ s.unit) : (getUnitFlux k s str).2.cont = .none := by
  have hfit : ContFits s := fun v hv => by rw [hm] at hv; cases hv
  have heff := (setUnit_effect k hs hfit hu).1 (.inl hc)
  have h1 := setUnit_light k hs str
  have hcont : (setUnit k s str).1.cont = .none := by
    rcases setUnit_cont k hs str hfit with h | ⟨_, _, h⟩ | ⟨_, v, v', hv, _⟩
    · exact absurd (by rw [← heff.2, h]) hne
    · exact h
    · rw [hm] at hv; cases hv
  have hcont2 : (setUnit k (setUnit k s str).1 s.unit.str).1.cont = .none := by
    rcases setUnit_cont k h1.1 s.unit.str (setUnit_fits k hs hfit str) with h | ⟨_, _, h⟩ | ⟨_, v, v', hv, _⟩
    · rw [h]; exact hcont
    · exact h
    · rw [hcont] at hv; cases hv
  unfold getUnitFlux
  simp only
  split <;> rename_i s2 _ heq <;> (rw [heq] at hcont2; exact hcont2)

/-- C68 fails for `nflux`: reading it leaves the spectrum in Hz. -/
theorem nflux_changes_unit (k : Consts K) {s : Spec K} (hs : WF k s) (hf : ContFits s) (hc : s.contop = none) :
    (nflux k s).2.unit.str = "frequency-Hz".toList := by
  have hu : strToUnit k "hz".toList = .ok ⟨.frequency, "Hz".toList, 1⟩ := rfl
  have := (setUnit_effect k hs hf hu).1 (.inl hc)
  unfold nflux
  split
  · rename_i s1 e he
    rw [he] at this
    simp at this
  · rename_i s1 he
    rw [he] at this
    simp only at this ⊢
    rw [this.2]
    rfl

/-- C68: the photon numbers `nflux` reports are the energy flux divided by the photon energy: at each sample
`n * E² = h * (x * f)`, with `E` the photon energy and `x * f` (= νF_ν) of the spectrum as it was. -/
theorem nflux_value (k : Consts K) {s : Spec K} (hs : WF k s) (hf : ContFits s) (hc : s.contop = none) :
    ∃ n, (nflux k s).1 = .ok n ∧ n.length = s.x.length ∧
      ∀ (i : ℕ) (hn : i < n.length) (hx : i < s.x.length) (hl : i < s.flux.length),
        n[i] * photonEnergy k s.unit s.x[i] ^ 2 = k.h * (s.x[i] * s.flux[i]) := by
  have hu : strToUnit k "hz".toList = .ok ⟨.frequency, "Hz".toList, 1⟩ := rfl
  have h0 := (setUnit_effect k hs hf hu).1 (.inl hc)
  have h1 := setUnit_light k hs "hz".toList
  unfold nflux
  split
  · rename_i s1 e he
    rw [he] at h0
    simp at h0
  · rename_i s1 he
    rw [he] at h0 h1
    simp only at h0 h1 ⊢
    have hlx : s1.x.length = s.x.length := by simpa using congrArg List.length h1.2.1
    refine ⟨_, rfl, by simp [h1.1.flen, hlx], ?_⟩
    intro i hn hx hl
    have e1 := List.getElem_of_eq h1.2.1 (i := i) (by simpa [hlx] using hx)
    have e2 := List.getElem_of_eq h1.2.2.1 (i := i) (by simp [h1.1.flen, hlx, hx])
    have nz := h1.1.nz (s1.x[i]'(hlx ▸ hx)) (List.getElem_mem _)
    have hh := k.hpos
    simp only [List.getElem_map, List.getElem_zipWith] at e1 e2 ⊢
    rw [← e1, ← e2, h0.2]
    simp only [photonEnergy]
    field_simp

/-! ## Order of the x axis -/

/-- C67 (remark): between wavelength and the other kinds the order of the axis is reversed: an increasing axis of positive numbers becomes a
decreasing one (the arrays are not sorted again). -/
theorem unit_change_reverses (k : Consts K) {s : Spec K} (hs : WF k s) (hf : ContFits s) (hc : s.contop = none)
    (hpos : ∀ x ∈ s.x, 0 < x) (hinc : s.x.Pairwise (· < ·)) {str : Str} {u : Unit K} (hu : strToUnit k str = .ok u)
    (hk : (s.unit.phys = .wavelength ∧ u.phys ≠ .wavelength) ∨ (s.unit.phys ≠ .wavelength ∧ u.phys = .wavelength)) :
    (setUnit k s str).1.x.Pairwise (· > ·) := by
  have heff := (setUnit_effect k hs hf hu).1 (.inl hc)
  have h1 := setUnit_light k hs str
  have hlen : (setUnit k s str).1.x.length = s.x.length := by simpa using congrArg List.length h1.2.1
  have hh := k.hpos
  have hcp := k.cpos
  have ho := (wf_scale k hs).2
  have hn' := units_scale_pos k _ (strToUnit_mem k str _ hu)
  rw [List.pairwise_iff_getElem] at hinc ⊢
  intro i j hi hj hij
  have hij' := hinc i j (hlen ▸ hi) (hlen ▸ hj) hij
  have ei := List.getElem_of_eq h1.2.1 (i := i) (by simpa using hi)
  have ej := List.getElem_of_eq h1.2.1 (i := j) (by simpa using hj)
  simp only [List.getElem_map, heff.2] at ei ej
  have nzi := h1.1.nz _ (List.getElem_mem hi)
  have nzj := h1.1.nz _ (List.getElem_mem hj)
  have pi := hpos _ (List.getElem_mem (hlen ▸ hi))
  have pj := hpos _ (List.getElem_mem (hlen ▸ hj))
  generalize (setUnit k s str).1.x[i] = a at *
  generalize (setUnit k s str).1.x[j] = b at *
  generalize s.x[i]'(hlen ▸ hi) = p at *
  generalize s.x[j]'(hlen ▸ hj) = q at *
  have P : 0 < k.h * k.c := mul_pos hh hcp
  unfold photonEnergy at ei ej
  show b < a
  rcases hk with ⟨h3, h4⟩ | ⟨h3, h4⟩
  · simp only [h3] at ei ej
    have hlt : k.h * k.c / (q * s.unit.scale) < k.h * k.c / (p * s.unit.scale) := by
      apply div_lt_div_of_pos_left P (by positivity)
      exact mul_lt_mul_of_pos_right hij' ho
    cases hp : u.phys with
    | wavelength => exact absurd hp h4
    | frequency =>
      simp only [hp] at ei ej
      rw [← ei, ← ej] at hlt
      exact lt_of_mul_lt_mul_right (lt_of_mul_lt_mul_left hlt hh.le) hn'.le
    | energy =>
      simp only [hp] at ei ej
      rw [← ei, ← ej] at hlt
      exact lt_of_mul_lt_mul_right hlt hn'.le
  · simp only [h4] at ei ej
    have hE : ∀ E y, 0 < E → y ≠ 0 → k.h * k.c / (y * u.scale) = E → y = k.h * k.c / (E * u.scale) := by
      intro E y hE hy h
      have := hn'.ne'
      rw [← h]; field_simp
    cases hp : s.unit.phys with
    | wavelength => exact absurd hp h3
    | frequency =>
      simp only [hp] at ei ej
      rw [hE _ a (by positivity) nzi ei, hE _ b (by positivity) nzj ej]
      apply div_lt_div_of_pos_left P (by positivity)
      gcongr
    | energy =>
      simp only [hp] at ei ej
      rw [hE _ a (by positivity) nzi ei, hE _ b (by positivity) nzj ej]
      apply div_lt_div_of_pos_left P (by positivity)
      gcongr

end Verif.Spectrum

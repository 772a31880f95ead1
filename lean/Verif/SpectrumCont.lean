import Verif.SpectrumHist

/-!
# Spectra: continuum operations, shapes, construction, rest frame, function spectra (C69-C72)
-/

namespace Verif.Spectrum

variable {K : Type} [Field K] [LinearOrder K] [IsStrictOrderedRing K]

/-! ## Continuum operations (C69) -/

/-- The flux without the pending continuum operation. -/
def undone (s : Spec K) : List K :=
  match s.contop, contSamples s with
  | some .subtraction, .ok c => List.zipWith (· + ·) s.flux c
  | some .normalize, .ok c => List.zipWith (· * ·) s.flux c
  | _, _ => s.flux

/-- A spectrum whose continuum (if any) has its shape and is nowhere zero; a pending operation has its continuum. -/
structure Good (k : Consts K) (s : Spec K) : Prop where
  wf : WF k s
  fits : ContFits s
  nz : ∀ c, contSamples s = .ok c → ∀ y ∈ c, y ≠ 0
  pending : s.contop ≠ none → ∃ c, contSamples s = .ok c

/-- The same photon energies and the same `x * flux`, the continuum operations undone. -/
def SameLightUndone (k : Consts K) (s t : Spec K) : Prop :=
  t.x.map (photonEnergy k t.unit) = s.x.map (photonEnergy k s.unit) ∧
  List.zipWith (· * ·) t.x (undone t) = List.zipWith (· * ·) s.x (undone s)

theorem contSamples_len {s : Spec K} (h : s.flux.length = s.x.length) {c : List K} (hc : contSamples s = .ok c) : c.length = s.flux.length := by
  unfold contSamples at hc
  cases hs : s.cont with
  | none => simp [hs] at hc
  | model f => simp only [hs, Except.ok.injEq] at hc; subst hc; simp [h]
  | arr v =>
    simp only [hs] at hc
    split at hc
    · rename_i hl; simp only [Except.ok.injEq] at hc; subst hc; exact hl
    · cases hc

theorem sub_add_back (f c : List K) (h : c.length = f.length) : List.zipWith (· + ·) (List.zipWith (· - ·) f c) c = f := by
  apply List.ext_getElem
  · simp [h]
  · intro i h1 h2; simp

theorem div_mul_back (f c : List K) (h : c.length = f.length) (hz : ∀ y ∈ c, y ≠ 0) :
    List.zipWith (· * ·) (List.zipWith (· / ·) f c) c = f := by
  apply List.ext_getElem
  · simp [h]
  · intro i h1 h2
    have : c[i]'(by simp at h1; omega) ≠ 0 := hz _ (List.getElem_mem _)
    simp [this]

/-- C69: subtracting the continuum and reverting gives the same spectrum. -/
theorem subtract_revert (k : Consts K) {s : Spec K} (hs : Good k s) (h : (subtractContinuum s).2 = none) :
    revertContinuum (subtractContinuum s).1 = (s, none) := by
  unfold subtractContinuum at h ⊢
  split at h
  · cases h
  · rename_i hc
    rw [if_neg hc]
    cases hcs : contSamples s with
    | error e => simp [hcs] at h
    | ok c =>
      have hl := contSamples_len hs.wf.flen hcs
      have hc' : s.contop = none := by simpa using hc
      have hcs' : contSamples { s with flux := List.zipWith (· - ·) s.flux c, contop := some .subtraction } = .ok c := by
        rw [← hcs]; unfold contSamples; simp [hl]
      unfold revertContinuum
      simp only [hcs', sub_add_back _ _ hl]
      rw [← hc']

/-- C69: normalising by a continuum that is nowhere zero and reverting gives the same spectrum. -/
theorem normalize_revert (k : Consts K) {s : Spec K} (hs : Good k s) (h : (normalizeByContinuum s).2 = none) :
    revertContinuum (normalizeByContinuum s).1 = (s, none) := by
  unfold normalizeByContinuum at h ⊢
  split at h
  · cases h
  · rename_i hc
    rw [if_neg hc]
    cases hcs : contSamples s with
    | error e => simp [hcs] at h
    | ok c =>
      have hl := contSamples_len hs.wf.flen hcs
      have hc' : s.contop = none := by simpa using hc
      have hcs' : contSamples { s with flux := List.zipWith (· / ·) s.flux c, contop := some .normalize } = .ok c := by
        rw [← hcs]; unfold contSamples; simp [hl]
      unfold revertContinuum
      simp only [hcs', div_mul_back _ _ hl (hs.nz c hcs)]
      rw [← hc']

/-- C69: while a continuum operation is pending, another one and a change of unit are rejected without effect. -/
theorem pending_excludes (k : Consts K) {s : Spec K} (hs : WF k s) (h : s.contop ≠ none) :
    subtractContinuum s = (s, some .value) ∧ normalizeByContinuum s = (s, some .value) ∧
    ∀ str u, strToUnit k str = .ok u → u ≠ s.unit → setUnit k s str = (s, some .value) := by
  have hc : s.contop.isSome := by
    cases hco : s.contop with
    | none => exact absurd hco h
    | some _ => rfl
  refine ⟨by simp [subtractContinuum, hc], by simp [normalizeByContinuum, hc], ?_⟩
  intro str u hu hne
  unfold setUnit
  simp only [hu]
  rw [if_neg]
  · simp [applyUnits, hc]
  · intro he
    exact hne (unit_eq_of_name k _ _ (strToUnit_mem k str _ hu) (wf_scale k hs).1 he.1)

/-- The calls of C69: everything but assignments to x, flux, continuum and resampling. -/
def Op.keepsLight : Op K → Prop
  | .unit _ | .getUnitFlux _ | .nflux | .subtract | .normalize | .revert | .err _ | .ivar _ | .z _ => True
  | _ => False

theorem undone_of_none {s : Spec K} (h : s.contop = none) : undone s = s.flux := by simp [undone, h]

theorem setUnit_good (k : Consts K) {s : Spec K} (hs : Good k s) (str : Str) :
    Good k (setUnit k s str).1 ∧ SameLightUndone k s (setUnit k s str).1 := by
  have h1 := setUnit_light k hs.wf str
  have h2 := setUnit_fits k hs.wf hs.fits str
  have hlen : (setUnit k s str).1.x.length = s.x.length := by simpa using congrArg List.length h1.2.1
  rcases setUnit_cont k hs.wf str hs.fits with h | ⟨hc, _, h⟩ | ⟨hc, v, v', hv, h, hl', hlight⟩
  · rw [h]; exact ⟨hs, rfl, rfl⟩
  · have hco : (setUnit k s str).1.contop = none := by rw [(setUnit_contop k s str).1, hc]
    refine ⟨⟨h1.1, h2, ?_, fun hp => absurd hco hp⟩, h1.2.1, ?_⟩
    · intro c hcs; simp [contSamples, h] at hcs
    · rw [undone_of_none hco, undone_of_none hc]; exact h1.2.2.1
  · have hco : (setUnit k s str).1.contop = none := by rw [(setUnit_contop k s str).1, hc]
    have hlv := hs.fits v hv
    refine ⟨⟨h1.1, h2, ?_, fun hp => absurd hco hp⟩, h1.2.1, ?_⟩
    · intro c hcs y hy
      have hf : (setUnit k s str).1.flux.length = v'.length := by rw [h1.1.flen, hlen, hl']
      simp only [contSamples, h, hf, if_true, Except.ok.injEq] at hcs
      subst hcs
      obtain ⟨i, hi, rfl⟩ := List.mem_iff_getElem.1 hy
      have hix : i < s.x.length := hl' ▸ hi
      have := List.getElem_of_eq hlight (i := i) (by simp [hlen, hl', hix])
      simp only [List.getElem_zipWith] at this
      have hcv : contSamples s = .ok v := by simp [contSamples, hv, hlv, hs.wf.flen]
      have h3 : v[i]'(hlv ▸ hix) ≠ 0 := hs.nz v hcv _ (List.getElem_mem _)
      have h4 : s.x[i] ≠ 0 := hs.wf.nz _ (List.getElem_mem _)
      intro h0
      rw [h0, mul_zero] at this
      exact mul_ne_zero h4 h3 this.symm
    · rw [undone_of_none hco, undone_of_none hc]; exact h1.2.2.1

theorem SameLightUndone.trans {k : Consts K} {s t u : Spec K} (h : SameLightUndone k s t) (h' : SameLightUndone k t u) : SameLightUndone k s u :=
  ⟨h'.1.trans h.1, h'.2.trans h.2⟩

theorem getUnitFlux_state (k : Consts K) (s : Spec K) (str : Str) :
    (getUnitFlux k s str).2 = (setUnit k (setUnit k s str).1 s.unit.str).1 := by
  unfold getUnitFlux
  simp only
  split <;> rename_i heq <;> rw [heq]

theorem nflux_state (k : Consts K) (s : Spec K) : (nflux k s).2 = (setUnit k s "hz".toList).1 := by
  unfold nflux
  split <;> rename_i heq <;> rw [heq]

theorem contSamples_congr {s t : Spec K} (h1 : t.cont = s.cont) (h2 : t.x = s.x) (h3 : t.flux.length = s.flux.length) :
    contSamples t = contSamples s := by
  unfold contSamples; rw [h1, h2, h3]

theorem undone_congr {s t : Spec K} (h0 : t.contop = s.contop) (h1 : t.cont = s.cont) (h2 : t.x = s.x) (h3 : t.flux = s.flux) :
    undone t = undone s := by
  unfold undone; rw [contSamples_congr h1 h2 (by rw [h3]), h0, h3]

theorem err_good (k : Consts K) {s : Spec K} (hs : Good k s) (e : List K) (he : e.length = s.err.length) (z : K) :
    Good k { s with err := e, z := z } ∧ SameLightUndone k s { s with err := e, z := z } := by
  have hc : contSamples { s with err := e, z := z } = contSamples s := contSamples_congr rfl rfl rfl
  refine ⟨⟨⟨hs.wf.flen, he.trans hs.wf.elen, hs.wf.unit, hs.wf.nz⟩, hs.fits, ?_, ?_⟩, rfl, ?_⟩
  · intro c h; rw [hc] at h; exact hs.nz c h
  · intro h; rw [hc]; exact hs.pending h
  · rw [undone_congr (s := s) (t := { s with err := e, z := z }) rfl rfl rfl rfl]

theorem exec_good (k : Consts K) (isqrt : K → K) (interp : List K → List K → K → K) {s : Spec K} (hs : Good k s) (op : Op K)
    (ho : op.keepsLight) : Good k (exec k isqrt interp s op) ∧ SameLightUndone k s (exec k isqrt interp s op) := by
  have hrefl : Good k s ∧ SameLightUndone k s s := ⟨hs, rfl, rfl⟩
  cases op with
  | unit u => exact setUnit_good k hs u
  | getUnitFlux u =>
    simp only [exec, getUnitFlux_state]
    have h1 := setUnit_good k hs u
    have h2 := setUnit_good k h1.1 s.unit.str
    exact ⟨h2.1, h1.2.trans h2.2⟩
  | nflux => simp only [exec, nflux_state]; exact setUnit_good k hs _
  | subtract =>
    simp only [exec, subtractContinuum]
    split
    · exact hrefl
    · rename_i hc
      have hc' : s.contop = none := by simpa using hc
      cases hcs : contSamples s with
      | error e => exact hrefl
      | ok c =>
        have hl := contSamples_len hs.wf.flen hcs
        have hcs' : contSamples { s with flux := List.zipWith (· - ·) s.flux c, contop := some .subtraction } = .ok c := by
          rw [← hcs]; exact contSamples_congr rfl rfl (by simp [hl])
        refine ⟨⟨⟨by simp [hl, hs.wf.flen], hs.wf.elen, hs.wf.unit, hs.wf.nz⟩, hs.fits, ?_, fun _ => ⟨c, hcs'⟩⟩, rfl, ?_⟩
        · intro c' h; rw [hcs'] at h; cases h; exact hs.nz c hcs
        · rw [undone_of_none hc']
          simp only [undone, hcs', sub_add_back _ _ hl]
  | normalize =>
    simp only [exec, normalizeByContinuum]
    split
    · exact hrefl
    · rename_i hc
      have hc' : s.contop = none := by simpa using hc
      cases hcs : contSamples s with
      | error e => exact hrefl
      | ok c =>
        have hl := contSamples_len hs.wf.flen hcs
        have hcs' : contSamples { s with flux := List.zipWith (· / ·) s.flux c, contop := some .normalize } = .ok c := by
          rw [← hcs]; exact contSamples_congr rfl rfl (by simp [hl])
        refine ⟨⟨⟨by simp [hl, hs.wf.flen], hs.wf.elen, hs.wf.unit, hs.wf.nz⟩, hs.fits, ?_, fun _ => ⟨c, hcs'⟩⟩, rfl, ?_⟩
        · intro c' h; rw [hcs'] at h; cases h; exact hs.nz c hcs
        · rw [undone_of_none hc']
          simp only [undone, hcs', div_mul_back _ _ hl (hs.nz c hcs)]
  | revert =>
    simp only [exec, revertContinuum]
    cases hcs : contSamples s with
    | error e => exact hrefl
    | ok c =>
      have hl := contSamples_len hs.wf.flen hcs
      cases hco : s.contop with
      | none => exact hrefl
      | some o =>
        cases o with
        | subtraction =>
          have hcs' : contSamples { s with flux := List.zipWith (· + ·) s.flux c, contop := none } = .ok c := by
            rw [← hcs]; exact contSamples_congr rfl rfl (by simp [hl])
          refine ⟨⟨⟨by simp [hl, hs.wf.flen], hs.wf.elen, hs.wf.unit, hs.wf.nz⟩, hs.fits, ?_, fun h => absurd rfl h⟩, rfl, ?_⟩
          · intro c' h; rw [hcs'] at h; cases h; exact hs.nz c hcs
          · simp only [undone, hco, hcs]
        | normalize =>
          have hcs' : contSamples { s with flux := List.zipWith (· * ·) s.flux c, contop := none } = .ok c := by
            rw [← hcs]; exact contSamples_congr rfl rfl (by simp [hl])
          refine ⟨⟨⟨by simp [hl, hs.wf.flen], hs.wf.elen, hs.wf.unit, hs.wf.nz⟩, hs.fits, ?_, fun h => absurd rfl h⟩, rfl, ?_⟩
          · intro c' h; rw [hcs'] at h; cases h; exact hs.nz c hcs
          · simp only [undone, hco, hcs]
  | err v =>
    simp only [exec, setErr]
    split
    · exact hrefl
    · rename_i h; exact err_good k hs v (by simpa using h) s.z
  | ivar v =>
    simp only [exec, setIvar]
    split
    · exact hrefl
    · rename_i h
      refine err_good k hs (v.map isqrt) ?_ s.z
      have : v.length = s.flux.length := by simpa using h
      simp [this, hs.wf.flen, hs.wf.elen]
  | z v => exact err_good k hs s.err rfl v
  | flux _ => exact absurd ho id
  | x _ => exact absurd ho id
  | x0 _ => exact absurd ho id
  | resample _ => exact absurd ho id
  | cont _ => exact absurd ho id

/-- C69: however unit changes, temporary conversions, continuum subtractions, normalisations, reverts and assignments of errors and redshift
are interleaved, with failing calls among them, the spectrum stands for the same light; in particular once no operation is pending,
`x * flux` and the photon energies are those of the beginning. -/
theorem history_keeps_light (k : Consts K) (isqrt : K → K) (interp : List K → List K → K → K) (ops : List (Op K)) :
    ∀ {s : Spec K}, Good k s → (∀ op ∈ ops, op.keepsLight) →
      Good k (run k isqrt interp s ops) ∧ SameLightUndone k s (run k isqrt interp s ops) := by
  induction ops with
  | nil => intro s hs _; exact ⟨hs, rfl, rfl⟩
  | cons op ops ih =>
    intro s hs h
    have h1 := exec_good k isqrt interp hs op (h op (by simp))
    have h2 := ih h1.1 (fun o ho => h o (by simp [ho]))
    exact ⟨h2.1, h1.2.trans h2.2⟩

/-- C69: so, back in the first unit with no operation pending, x axis and flux are those of the beginning. -/
theorem history_roundtrip (k : Consts K) (isqrt : K → K) (interp : List K → List K → K → K) (ops : List (Op K))
    {s : Spec K} (hs : Good k s) (hc : s.contop = none) (h : ∀ op ∈ ops, op.keepsLight)
    (hc' : (run k isqrt interp s ops).contop = none) (hu : (run k isqrt interp s ops).unit.str = s.unit.str) :
    (run k isqrt interp s ops).x = s.x ∧ (run k isqrt interp s ops).flux = s.flux := by
  obtain ⟨hg, hl⟩ := history_keeps_light k isqrt interp ops hs h
  have hu' := unit_eq_of_str k _ _ (wf_scale k hg.wf).1 (wf_scale k hs.wf).1 hu
  rw [SameLightUndone, undone_of_none hc, undone_of_none hc'] at hl
  generalize run k isqrt interp s ops = t at *
  have hd := light_determines k (s := { s with err := s.flux }) (t := { t with err := t.flux })
    ⟨hs.wf.flen, hs.wf.flen, hs.wf.unit, hs.wf.nz⟩ ⟨hg.wf.flen, hg.wf.flen, hg.wf.unit, hg.wf.nz⟩ ⟨hl.1, hl.2, hl.2⟩ hu
  exact ⟨hd.2.1, hd.2.2.1⟩

/-- C69 does not extend to a new continuum fit between subtraction and revert: the new continuum is added, not the one subtracted. -/
theorem refit_before_revert (k : Consts ℚ) (isqrt : ℚ → ℚ) (interp : List ℚ → List ℚ → ℚ → ℚ) :
    (run k isqrt interp ⟨⟨.frequency, "Hz".toList, 1⟩, [1, 2], [10, 20], [0, 0], .arr [3, 3], none, 0⟩
      [.subtract, .cont (.arr [5, 5]), .revert]).flux = [12, 22] := by
  simp [run, exec, subtractContinuum, revertContinuum, contSamples]
  norm_num

/-! ## Shapes, rest frame, construction (C70) -/

/-- C70: after any history of the modelled calls the three arrays have the shape they were created with. -/
theorem shapes_kept (k : Consts K) (isqrt : K → K) (interp : List K → List K → K → K) (ops : List (Op K)) :
    ∀ {s : Spec K} {n : Nat}, s.x.length = n ∧ s.flux.length = n ∧ s.err.length = n →
      (run k isqrt interp s ops).x.length = n ∧ (run k isqrt interp s ops).flux.length = n ∧ (run k isqrt interp s ops).err.length = n := by
  have hset : ∀ (s : Spec K) (str : Str) (n : Nat), s.x.length = n ∧ s.flux.length = n ∧ s.err.length = n →
      (setUnit k s str).1.x.length = n ∧ (setUnit k s str).1.flux.length = n ∧ (setUnit k s str).1.err.length = n := by
    intro s str n h
    unfold setUnit
    cases hu : strToUnit k str with
    | error e => exact h
    | ok u =>
      simp only
      split
      · exact h
      · cases ha : applyUnits k s s.unit u with
        | error e => exact h
        | ok s' =>
          obtain ⟨_, _, _, _, hx, hf, he⟩ := applyUnits_ok k ha
          simp [hx, hf, he, h]
  induction ops with
  | nil => intro s n h; exact h
  | cons op ops ih =>
    intro s n h
    have : (exec k isqrt interp s op).x.length = n ∧ (exec k isqrt interp s op).flux.length = n ∧
        (exec k isqrt interp s op).err.length = n := by
      cases op with
      | unit u => exact hset s u n h
      | getUnitFlux u => simp only [exec, getUnitFlux_state]; exact hset _ _ n (hset s u n h)
      | nflux => simp only [exec, nflux_state]; exact hset _ _ n h
      | subtract =>
        simp only [exec, subtractContinuum]
        split
        · exact h
        · cases hcs : contSamples s with
          | error e => exact h
          | ok c => have := contSamples_len (h.2.1.trans h.1.symm) hcs; simp [this, h]
      | normalize =>
        simp only [exec, normalizeByContinuum]
        split
        · exact h
        · cases hcs : contSamples s with
          | error e => exact h
          | ok c => have := contSamples_len (h.2.1.trans h.1.symm) hcs; simp [this, h]
      | revert =>
        simp only [exec, revertContinuum]
        cases hcs : contSamples s with
        | error e => exact h
        | ok c =>
          have := contSamples_len (h.2.1.trans h.1.symm) hcs
          cases hco : s.contop with
          | none => exact h
          | some o => cases o <;> simp [this, h]
      | flux v => simp only [exec, setFlux]; split <;> simp_all
      | err v => simp only [exec, setErr]; split <;> simp_all
      | x v => simp only [exec, setX]; split <;> simp_all
      | x0 v =>
        simp only [exec, setX0, setX]
        by_cases hv : v.length ≠ s.flux.length
        · rw [if_pos hv]; exact h
        · rw [if_neg hv]
          simp only [ne_eq, not_not] at hv
          simp [hv, h]
      | ivar v => simp only [exec, setIvar]; split <;> simp_all
      | resample v => simp only [exec, resample]; split <;> simp_all
      | cont c => exact h
      | z v => exact h
    exact ih this

/-- C70: the rest-frame axis is what was assigned to it (redshift not -1); the observed axis is stretched by 1+z. -/
theorem x0_roundtrip (s : Spec K) (v : List K) (hz : s.z ≠ -1) (hv : v.length = s.flux.length) :
    (setX0 s v).2 = none ∧ x0 (setX0 s v).1 = v ∧ (setX0 s v).1.x = v.map (· * (1 + s.z)) := by
  have hz' : s.z + 1 ≠ 0 := fun h => hz (by linarith)
  simp only [setX0, setX, hv, ne_eq, not_true_eq_false, if_false, x0, List.map_map, true_and]
  constructor
  · conv_rhs => rw [← List.map_id v]
    apply List.map_congr_left
    intro a _
    simp [hz']
  · apply List.map_congr_left
    intro a _
    simp [add_comm]

/-- C70: the constructor keeps every (x, flux, error) sample together, and sorts them by x. -/
theorem construct_spec (k : Consts K) (isqrt : K → K) (x flux err : List K) (unit : Str) (sort : Bool) {s : Spec K}
    (h : construct k isqrt x flux (some err) none unit sort = .ok s) :
    x.length = flux.length ∧ err.length = flux.length ∧ strToUnit k unit = .ok s.unit ∧
    (s.x.zip (s.flux.zip s.err)).Perm (x.zip (flux.zip (err.map (fun e => |e|)))) ∧
    (sort = true → s.x.Pairwise (· ≤ ·)) ∧ (sort = false → s.x = x ∧ s.flux = flux) ∧
    s.cont = .none ∧ s.contop = none ∧ s.z = 0 := by
  have habs : ∀ e : K, absErr e = |e| := by
    intro e
    unfold absErr
    split
    · rename_i h; rw [abs_of_neg h]; ring
    · rename_i h; rw [abs_of_nonneg (not_lt.1 h)]
  have hmap : err.map absErr = err.map (fun e => |e|) := List.map_congr_left (fun e _ => habs e)
  unfold construct at h
  split at h
  · cases h
  · rename_i h1
    simp only [hmap] at h
    split at h
    · cases h
    · rename_i h2
      split at h
      · cases h
      · rename_i u hu
        simp only [ne_eq, not_not, List.length_map] at h1 h2
        simp only [Except.ok.injEq] at h
        subst h
        have hzip : ∀ l : List (K × K × K), (l.map (·.1)).zip ((l.map (·.2.1)).zip (l.map (·.2.2))) = l := by
          intro l
          induction l with
          | nil => rfl
          | cons a l ih => simp [ih]
        refine ⟨h1, h2, hu, ?_, ?_, ?_, rfl, rfl, rfl⟩
        · simp only
          rw [hzip]
          cases sort
          · simp
          · simp only [if_true]; exact List.mergeSort_perm _ _
        · rintro rfl
          simp only [if_true]
          have : (sortSamples (x.zip (flux.zip (err.map (fun e => |e|))))).Pairwise (fun a b => decide (a.1 ≤ b.1) = true) := by
            apply List.pairwise_mergeSort
            · intro a b c h1 h2
              simp only [decide_eq_true_eq] at *
              exact le_trans h1 h2
            · intro a b
              simp only [Bool.or_eq_true, decide_eq_true_eq]
              exact le_total _ _
          rw [List.pairwise_map]
          simpa using this
        · rintro rfl
          simp only [Bool.false_eq_true, if_false]
          constructor
          · rw [List.map_fst_zip]
            simp [h1, h2]
          · rw [show (fun a : K × K × K => a.2.1) = Prod.fst ∘ Prod.snd from rfl, ← List.map_map, List.map_snd_zip, List.map_fst_zip]
            · simp [h2]
            · simp [h1, h2]

/-- C70: if both an error and an inverse variance are given the error is silently ignored (the documented ValueError is unreachable). -/
theorem construct_both (k : Consts K) (isqrt : K → K) (x flux err ivar : List K) (unit : Str) (sort : Bool) :
    construct k isqrt x flux (some err) (some ivar) unit sort = construct k isqrt x flux none (some ivar) unit sort := rfl

/-- C70: positive inverse variances `v` are the errors `e` with `e² v = 1`, whatever errors are given as well; without either the errors are zero. -/
theorem construct_ivar (k : Consts K) (isqrt : K → K) (hi : ∀ v, 0 < v → 0 < isqrt v ∧ isqrt v * isqrt v * v = 1) (x flux ivar e : List K)
    (err : Option (List K)) (unit : Str) (sort : Bool) (he : List.Forall₂ (fun e v => 0 < v ∧ 0 ≤ e ∧ e * e * v = 1) e ivar) :
    construct k isqrt x flux err (some ivar) unit sort = construct k isqrt x flux (some e) none unit sort ∧
    construct k isqrt x flux none none unit sort = construct k isqrt x flux (some (flux.map fun _ => 0)) none unit sort := by
  have h1 : ivar.map isqrt = e.map absErr := by
    induction he with
    | nil => rfl
    | @cons a v e iv h _ ih =>
      simp only [List.map_cons, ih, List.cons.injEq, and_true]
      obtain ⟨h1, h2, h3⟩ := h
      obtain ⟨h4, h5⟩ := hi v h1
      have h6 : isqrt v * isqrt v = a * a := mul_right_cancel₀ h1.ne' (by rw [h5, h3])
      rw [show absErr a = a from by unfold absErr; rw [if_neg (not_lt.2 h2)]]
      rcases mul_self_eq_mul_self_iff.1 h6 with h | h
      · exact h
      · linarith
  have h2 : (flux.map fun _ => (0 : K)).map absErr = flux.map fun _ => 0 := by
    rw [List.map_map]; apply List.map_congr_left; intro a _; simp [absErr]
  constructor
  · unfold construct; simp only [h1]
  · unfold construct; simp only [h2]

/-! ## Function spectra (C71) -/

theorem xitrans_energy (k : Consts K) {o n : Unit K} (ho : 0 < o.scale) (hn : 0 < n.scale) {x : K} (hx : x ≠ 0) :
    photonEnergy k o (xitrans k o n x) = photonEnergy k n x := by
  have := xftrans_energy k (o := n) (n := o) hn ho hx 0
  have e : xitrans k o n x = (xftrans k n o x 0).1 := by unfold xitrans xftrans; simp
  rw [e, this]

/-- C71: until the unit is changed a second time, assigning to `x` evaluates the function in its own unit: the new samples are the light the
function describes at these positions. -/
theorem fspec_setX (k : Consts K) (xi : List K) (f : K → K) (unit : Str) {s : FSpec K}
    (h : FSpec.construct k xi f unit = .ok s) (str : Str) {u : Unit K} (hu : strToUnit k str = .ok u) (v : List K) (hv : ∀ x ∈ v, x ≠ 0) :
    let t := (s.setUnit k str).1.setX k v
    t.unit = u ∧ t.x = v ∧ ∀ p ∈ t.x.zip t.flux, ∃ y, photonEnergy k s.unit y = photonEnergy k u p.1 ∧ p.1 * p.2 = y * f y := by
  unfold FSpec.construct at h
  cases hu0 : strToUnit k unit with
  | error e => rw [hu0] at h; cases h
  | ok u0 =>
    rw [hu0] at h
    simp only [Except.ok.injEq] at h
    have hm := strToUnit_mem k str _ hu
    have hm0 := strToUnit_mem k unit _ hu0
    have hp := units_scale_pos k _ hm
    have hp0 := units_scale_pos k _ hm0
    subst h
    simp only [FSpec.setUnit, hu]
    split
    · rename_i he
      have := unit_eq_of_name k _ _ hm hm0 he.1
      subst this
      refine ⟨rfl, rfl, ?_⟩
      intro p hp
      simp only [FSpec.setX] at hp
      obtain ⟨i, hi, rfl⟩ := List.mem_iff_getElem.1 hp
      refine ⟨v[i]'(by simp at hi; exact hi), ?_⟩
      simp
    · refine ⟨rfl, rfl, ?_⟩
      intro p hp'
      simp only [FSpec.setX, List.not_mem_nil, if_false, List.nil_append, List.length_singleton, times] at hp'
      obtain ⟨i, hi, rfl⟩ := List.mem_iff_getElem.1 hp'
      have hi' : i < v.length := by simp at hi; exact hi
      have hx := hv _ (List.getElem_mem hi')
      refine ⟨xitrans k u0 u v[i], ?_⟩
      simp only [List.getElem_zip, List.getElem_map]
      have hE := xitrans_energy k hp0 hp hx
      have hne : xitrans k u0 u v[i] ≠ 0 := by
        have e : xitrans k u0 u v[i] = (xftrans k u u0 v[i] 0).1 := by unfold xitrans xftrans; simp
        rw [e]; exact xftrans_ne_zero k hp hp0 hx 0
      refine ⟨hE, ?_⟩
      have h1 := xftrans_light k hp0 hp hne (f (xitrans k u0 u v[i]))
      have h2 : (xftrans k u0 u (xitrans k u0 u v[i]) (f (xitrans k u0 u v[i]))).1 = v[i] := by
        apply photonEnergy_inj k hp (xftrans_ne_zero k hp0 hp hne _) hx
        rw [xftrans_energy k hp0 hp hne, hE]
      rw [h2] at h1
      exact h1

theorem fspec_strs_ne' : (Phys.str .frequency ++ '-' :: "Hz".toList) ≠ (Phys.str .energy ++ '-' :: "erg".toList) := by decide

theorem fspec_strs_ne : Unit.str ⟨.frequency, "Hz".toList, (1 : K)⟩ ≠ Unit.str ⟨.energy, "erg".toList, (1 : K)⟩ := fspec_strs_ne'

/-- C71 fails after a second change: a function spectrum in Hz that was changed to erg and back evaluates its function at the wrong
places (here, with h = 2, `f 12` instead of `f 3`). -/
theorem fspec_two_changes_wrong (k : Consts ℚ) (hk : k.h = 2) (f : ℚ → ℚ) :
    ∃ s, FSpec.construct k [1] f "hz".toList = .ok s ∧
      (((s.setUnit k "erg".toList).1.setUnit k "hz".toList).1.setX k [3]).unit = s.unit ∧
      (((s.setUnit k "erg".toList).1.setUnit k "hz".toList).1.setX k [3]).flux = [4 * f 12] ∧ (s.setX k [3]).flux = [f 3] := by
  have e0 : strToUnit k "hz".toList = .ok ⟨.frequency, "Hz".toList, 1⟩ := rfl
  refine ⟨⟨f, ⟨.frequency, "Hz".toList, 1⟩, [1], [f 1], [], none⟩, by simp only [FSpec.construct, e0]; simp, ?_, ?_, ?_⟩
  · rfl
  · have e1 : strToUnit k "erg".toList = .ok ⟨.energy, "erg".toList, 1⟩ := rfl
    have e2 : strToUnit k "hz".toList = .ok ⟨.frequency, "Hz".toList, 1⟩ := rfl
    have h1 : ("erg".toList : Str) ≠ "Hz".toList := by decide
    have h2 : ("Hz".toList : Str) ≠ "erg".toList := by decide
    have h3 := fspec_strs_ne (K := ℚ)
    simp only [FSpec.setUnit, e1, e2, h1, h2, h3, false_and, if_false, List.not_mem_nil, List.nil_append, List.mem_singleton, FSpec.setX]
    simp [times, xitrans, xftrans, convertUnitType, hk]
    norm_num
    ring
  · rfl

/-! ## The hypotheses are met -/

/-- Physical constants (h = 2, c = 3, one electron volt = 5). -/
def kEx : Consts ℚ := ⟨2, 3, 5, by norm_num, by norm_num, by norm_num⟩

/-- Three samples in angstroms with an array continuum. -/
def sEx : Spec ℚ := ⟨⟨.wavelength, "angstrom".toList, 1 / 10 ^ 8⟩, [4000, 5000, 6000], [7, 8, 6], [1, 1, 2], .arr [7, 7, 5], none, 1 / 10⟩

theorem sEx_good : Good kEx sEx :=
  ⟨⟨rfl, rfl, ⟨"ang".toList, rfl⟩, by simp [sEx]⟩, by intro v hv; simp [sEx] at hv; subst hv; rfl,
   by intro c hc; simp [contSamples, sEx] at hc; subst hc; simp, by intro h; simp [sEx] at h⟩

/-- C67-C69: a history that changes unit twice, subtracts, tries a rejected unit change, reverts and comes back is one the theorems
speak about; it ends in the first unit with nothing pending, so it gives the first samples back. -/
example (isqrt : ℚ → ℚ) (interp : List ℚ → List ℚ → ℚ → ℚ) :
    let t := run kEx isqrt interp sEx [.unit "hz".toList, .subtract, .unit "nm".toList, .revert, .unit "erg".toList, .unit "ang".toList]
    t.x = sEx.x ∧ t.flux = sEx.flux := by
  refine history_roundtrip kEx isqrt interp _ sEx_good rfl (by simp [Op.keepsLight]) ?_ ?_
  · rfl
  · rfl

/-- C67: the flux really changes on the way. -/
example : (setUnit kEx sEx "hz".toList).1.x = [3 * 10 ^ 8 / 4000, 3 * 10 ^ 8 / 5000, 3 * 10 ^ 8 / 6000] := by
  have e : strToUnit kEx "hz".toList = .ok ⟨.frequency, "Hz".toList, 1⟩ := rfl
  have hne : ¬ (("Hz".toList : Str) = "angstrom".toList) := by decide
  simp only [setUnit, e, sEx, hne, false_and, if_false, applyUnits, xftrans, convertUnitType]
  simp [kEx]
  norm_num

/-- The hypotheses of `construct_ivar` are met by an inverse variance of four. -/
example : List.Forall₂ (fun e v : ℚ => 0 < v ∧ 0 ≤ e ∧ e * e * v = 1) [1 / 2, 1 / 3] [4, 9] := by
  simp only [List.forall₂_cons, List.forall₂_nil_right_iff]; norm_num

/-- C70: the constructor accepts unsorted samples. -/
example (isqrt : ℚ → ℚ) : ∃ s, construct kEx isqrt [5, 4] [1, 2] (some [-1, 3]) none "nm".toList true = .ok s :=
  ⟨_, rfl⟩

end Verif.Spectrum

import Verif.Spectrum

/-!
# Properties of spectra (C67-C72)
-/

namespace Verif.Spectrum

variable {K : Type} [Field K] [LinearOrder K] [IsStrictOrderedRing K]

/-! ## Specification -/

/-- The energy (erg) of a photon at position `x` of an axis measured in unit `u`. -/
def photonEnergy (k : Consts K) (u : Unit K) (x : K) : K :=
  match u.phys with
  | .wavelength => k.h * k.c / (x * u.scale)
  | .frequency => k.h * (x * u.scale)
  | .energy => x * u.scale

/-- Two spectra describe the same light: the same photon energies, and the same `x * f_x` (λF_λ = νF_ν = E F_E, which does
not depend on the unit) for the flux and its error. -/
def SameLight (k : Consts K) (s t : Spec K) : Prop :=
  t.x.map (photonEnergy k t.unit) = s.x.map (photonEnergy k s.unit) ∧
  List.zipWith (· * ·) t.x t.flux = List.zipWith (· * ·) s.x s.flux ∧
  List.zipWith (· * ·) t.x t.err = List.zipWith (· * ·) s.x s.err

/-- A spectrum as the constructor makes it: arrays of one shape, a unit `strToUnit` knows; no sample at position 0. -/
structure WF (k : Consts K) (s : Spec K) : Prop where
  flen : s.flux.length = s.x.length
  elen : s.err.length = s.x.length
  unit : ∃ str, strToUnit k str = .ok s.unit
  nz : ∀ x ∈ s.x, x ≠ 0

/-! ## Unit strings -/

/-- The units there are. -/
def units (k : Consts K) : List (Unit K) :=
  [⟨.wavelength, "angstrom".toList, 1 / 10 ^ 8⟩, ⟨.wavelength, "nm".toList, 1 / 10 ^ 7⟩, ⟨.wavelength, "micron".toList, 1 / 10 ^ 4⟩,
   ⟨.wavelength, "m".toList, 10 ^ 2⟩, ⟨.wavelength, "cm".toList, 1⟩, ⟨.frequency, "Hz".toList, 1⟩, ⟨.frequency, "THz".toList, 10 ^ 12⟩,
   ⟨.energy, "eV".toList, k.ev⟩, ⟨.energy, "erg".toList, 1⟩]

theorem lower_no_upper (s : Str) (d : Char) (hd : 65 ≤ d.toNat ∧ d.toNat ≤ 90) : d ∉ lower s := by
  intro h
  obtain ⟨c, _, hc⟩ := List.mem_map.1 h
  unfold Char.toLower at hc
  split at hc
  · rename_i h1
    have h2 := congrArg (fun c : Char => c.val.toNat) hc
    simp only at h2
    have h3 : 'A'.val ≤ c.val ∧ c.val ≤ 'Z'.val := by simpa using h1
    obtain ⟨h4, h5⟩ := h3
    have h6 : c.val.toNat ≤ 90 := by simpa [UInt32.le_iff_toNat_le] using h5
    have h6' : 65 ≤ c.val.toNat := by simpa [UInt32.le_iff_toNat_le] using h4
    simp [UInt32.toNat_add] at h2
    have e1 : c.val.toNat = c.toNat := rfl
    omega
  · rename_i h1
    subst hc
    apply h1
    have e1 : c.val.toNat = c.toNat := rfl
    simp [UInt32.le_iff_toNat_le]
    omega

theorem ne_of_upper (s t : Str) (d : Char) (hd : 65 ≤ d.toNat ∧ d.toNat ≤ 90) (ht : d ∈ t) : lower s ≠ t := by
  rintro rfl
  exact lower_no_upper s d hd ht

theorem ne_J (s : Str) : lower s ≠ "J".toList := ne_of_upper s _ 'J' (by decide) (by decide)
theorem ne_eJ (s : Str) : lower s ≠ "energy-J".toList := ne_of_upper s _ 'J' (by decide) (by decide)
theorem ne_eV (s : Str) : lower s ≠ "energy-eV".toList := ne_of_upper s _ 'V' (by decide) (by decide)
theorem ne_THz (s : Str) : lower s ≠ "frequency-THz".toList := ne_of_upper s _ 'T' (by decide) (by decide)

/-- Every unit `strToUnit` gives is one of nine; joules are not among them. -/
theorem strToUnit_mem (k : Consts K) (s : Str) (u : Unit K) (h : strToUnit k s = .ok u) : u ∈ units k := by
  have a := ne_J s
  have b := ne_eJ s
  have c := ne_eV s
  have d := ne_THz s
  unfold strToUnit at h
  simp only [List.mem_cons, List.not_mem_nil, or_false, a, b, c, d] at h
  repeat' split at h
  all_goals first
    | contradiction
    | (simp only [Except.ok.injEq] at h; subst h; simp [units])

/-- The words that name a unit. -/
def words : List Str := ["wl", "lambda", "ang", "angstroms", "wavelength", "wavelength-angstrom", "nm", "wavelength-nm", "microns",
  "um", "wavelength-micron", "m", "wavelength-m", "cm", "wavelength-cm", "f", "nu", "hz", "frequency", "frequency-hz", "thz", "e", "en",
  "energy", "erg", "energy-erg"].map String.toList

/-- C67: a string is accepted as a unit exactly if it is one of 26 words, in any capitalisation.  'J', 'energy-J', 'energy-eV' and
'frequency-THz', which the code lists, are not among them. -/
theorem unit_accepted_iff (k : Consts K) (s : Str) : (∃ u, strToUnit k s = .ok u) ↔ lower s ∈ words := by
  have a := ne_J s
  have b := ne_eJ s
  have c := ne_eV s
  have d := ne_THz s
  constructor
  · rintro ⟨u, h⟩
    unfold strToUnit at h
    simp only [List.mem_cons, List.not_mem_nil, or_false, a, b, c, d] at h
    repeat' split at h
    all_goals first
      | contradiction
      | (rename_i hw
         first
           | (rcases hw with hw | hw | hw | hw | hw | hw <;> rw [hw] <;> decide)
           | (rcases hw with hw | hw | hw | hw | hw <;> rw [hw] <;> decide)
           | (rcases hw with hw | hw | hw <;> rw [hw] <;> decide)
           | (rcases hw with hw | hw <;> rw [hw] <;> decide)
           | (rw [hw]; decide))
  · intro h
    simp only [words, List.map_cons, List.map_nil, List.mem_cons, List.not_mem_nil, or_false] at h
    unfold strToUnit
    rcases h with h | h | h | h | h | h | h | h | h | h | h | h | h | h | h | h | h | h | h | h | h | h | h | h | h | h <;>
      (rw [h]; exact ⟨_, rfl⟩)

/-- The unit strings a spectrum itself reports that can be assigned again. -/
theorem unit_string_readable (k : Consts K) (u : Unit K) (hu : u ∈ units k) :
    strToUnit k u.str = if u.name = "THz".toList ∨ u.name = "eV".toList then .error .value else .ok u := by
  simp only [units, List.mem_cons, List.not_mem_nil, or_false] at hu
  rcases hu with rfl | rfl | rfl | rfl | rfl | rfl | rfl | rfl | rfl <;> rfl

theorem units_scale_pos (k : Consts K) (u : Unit K) (hu : u ∈ units k) : 0 < u.scale := by
  have := k.evpos
  simp only [units, List.mem_cons, List.not_mem_nil, or_false] at hu
  rcases hu with rfl | rfl | rfl | rfl | rfl | rfl | rfl | rfl | rfl <;> simp <;> assumption

def unitNames : List Str := ["angstrom", "nm", "micron", "m", "cm", "Hz", "THz", "eV", "erg"].map String.toList

def unitStrs : List Str := ["wavelength-angstrom", "wavelength-nm", "wavelength-micron", "wavelength-m", "wavelength-cm", "frequency-Hz",
  "frequency-THz", "energy-eV", "energy-erg"].map String.toList

theorem unit_eq_of_name (k : Consts K) (u v : Unit K) (hu : u ∈ units k) (hv : v ∈ units k) (h : u.name = v.name) : u = v := by
  have hn : ((units k).map Unit.name).Nodup := by
    have e : (units k).map Unit.name = unitNames := rfl
    rw [e]; decide
  exact List.inj_on_of_nodup_map hn hu hv h

theorem unit_eq_of_str (k : Consts K) (u v : Unit K) (hu : u ∈ units k) (hv : v ∈ units k) (h : u.str = v.str) : u = v := by
  have hn : ((units k).map Unit.str).Nodup := by
    have e : (units k).map Unit.str = unitStrs := rfl
    rw [e]; decide
  exact List.inj_on_of_nodup_map hn hu hv h

theorem strToUnit_error (k : Consts K) (s : Str) (e : Err) (h : strToUnit k s = .error e) : e = .value := by
  unfold strToUnit at h
  simp only at h
  repeat' split at h
  all_goals first | (cases h; rfl) | (cases h; done)

/-! ## One sample -/

theorem xftrans_ne_zero (k : Consts K) {o n : Unit K} (ho : 0 < o.scale) (hn : 0 < n.scale) {x : K} (hx : x ≠ 0) (f : K) :
    (xftrans k o n x f).1 ≠ 0 := by
  have hh := k.hpos.ne'
  have hc := k.cpos.ne'
  have ho' := ho.ne'
  have hn' := hn.ne'
  unfold xftrans
  cases ho : o.phys <;> cases hn : n.phys <;> simp [convertUnitType, *]

theorem xftrans_energy (k : Consts K) {o n : Unit K} (ho : 0 < o.scale) (hn : 0 < n.scale) {x : K} (hx : x ≠ 0) (f : K) :
    photonEnergy k n (xftrans k o n x f).1 = photonEnergy k o x := by
  have hh := k.hpos.ne'
  have hc := k.cpos.ne'
  have ho' := ho.ne'
  have hn' := hn.ne'
  unfold xftrans photonEnergy
  cases ho : o.phys <;> cases hn : n.phys <;> simp only [convertUnitType] <;> field_simp

theorem xftrans_light (k : Consts K) {o n : Unit K} (ho : 0 < o.scale) (hn : 0 < n.scale) {x : K} (hx : x ≠ 0) (f : K) :
    (xftrans k o n x f).1 * (xftrans k o n x f).2 = x * f := by
  have hh := k.hpos.ne'
  have hc := k.cpos.ne'
  have ho' := ho.ne'
  have hn' := hn.ne'
  unfold xftrans
  cases ho : o.phys <;> cases hn : n.phys <;> simp only [convertUnitType] <;> field_simp

/-- The new position does not depend on the flux. -/
theorem xftrans_fst (k : Consts K) (o n : Unit K) (x f g : K) : (xftrans k o n x f).1 = (xftrans k o n x g).1 := by
  unfold xftrans
  cases o.phys <;> cases n.phys <;> simp only [convertUnitType]

theorem photonEnergy_inj (k : Consts K) {u : Unit K} (hu : 0 < u.scale) {x y : K} (hx : x ≠ 0) (hy : y ≠ 0)
    (h : photonEnergy k u x = photonEnergy k u y) : x = y := by
  have hh := k.hpos.ne'
  have hc := k.cpos.ne'
  have hu' := hu.ne'
  unfold photonEnergy at h
  cases hp : u.phys <;> simp only [hp] at h
  · field_simp at h; exact h.symm
  · field_simp at h; exact h
  · field_simp at h; exact h

/-! ## Whole spectra -/

theorem applyUnits_ok (k : Consts K) {s s' : Spec K} {o n : Unit K} (h : applyUnits k s o n = .ok s') :
    s.contop = none ∧ s'.contop = none ∧ s'.unit = n ∧ s'.z = s.z ∧
    s'.x = List.zipWith (fun x y => (xftrans k o n x y).1) s.x s.flux ∧
    s'.flux = List.zipWith (fun x y => (xftrans k o n x y).2) s.x s.flux ∧
    s'.err = List.zipWith (fun x y => (xftrans k o n x y).2) s.x s.err := by
  unfold applyUnits at h
  split at h
  · simp at h
  · rename_i hc
    simp only at h
    split at h
    · simp at h
    · simp only [Except.ok.injEq] at h
      subst h
      simp at hc
      simp [hc]

theorem wf_scale (k : Consts K) {s : Spec K} (h : WF k s) : s.unit ∈ units k ∧ 0 < s.unit.scale := by
  obtain ⟨str, hs⟩ := h.unit
  have := strToUnit_mem k str _ hs
  exact ⟨this, units_scale_pos k _ this⟩

theorem applyUnits_light (k : Consts K) {s s' : Spec K} (hs : WF k s) {str : Str} {n : Unit K} (hn : strToUnit k str = .ok n)
    (h : applyUnits k s s.unit n = .ok s') : WF k s' ∧ SameLight k s s' := by
  obtain ⟨_, _, hu, _, hx, hf, he⟩ := applyUnits_ok k h
  have ho := (wf_scale k hs).2
  have hn' := units_scale_pos k _ (strToUnit_mem k str _ hn)
  have l1 := hs.flen
  have l2 := hs.elen
  refine ⟨⟨?_, ?_, ⟨str, hu ▸ hn⟩, ?_⟩, ?_, ?_, ?_⟩
  · simp [hf, hx]
  · simp [he, hx, l1, l2]
  · intro x hmem
    rw [hx] at hmem
    obtain ⟨i, hi, rfl⟩ := List.mem_iff_getElem.1 hmem
    simp only [List.getElem_zipWith]
    exact xftrans_ne_zero k ho hn' (hs.nz _ (List.getElem_mem _)) _
  · rw [hx, hu]
    apply List.ext_getElem
    · simp [l1]
    · intro i h1 h2
      simp only [List.getElem_map, List.getElem_zipWith]
      exact xftrans_energy k ho hn' (hs.nz _ (List.getElem_mem _)) _
  · rw [hx, hf]
    apply List.ext_getElem
    · simp
    · intro i h1 h2
      simp only [List.getElem_zipWith]
      exact xftrans_light k ho hn' (hs.nz _ (List.getElem_mem _)) _
  · rw [hx, he]
    apply List.ext_getElem
    · simp [l1]
    · intro i h1 h2
      have hi : i < s.err.length := by simp at h2; exact h2.2
      simp only [List.getElem_zipWith]
      rw [xftrans_fst k s.unit n _ _ s.err[i]]
      exact xftrans_light k ho hn' (hs.nz _ (List.getElem_mem _)) _

theorem SameLight.refl (k : Consts K) (s : Spec K) : SameLight k s s := ⟨rfl, rfl, rfl⟩

theorem SameLight.trans {k : Consts K} {s t u : Spec K} (h : SameLight k s t) (h' : SameLight k t u) : SameLight k s u :=
  ⟨h'.1.trans h.1, h'.2.1.trans h.2.1, h'.2.2.trans h.2.2⟩

theorem setUnit_light (k : Consts K) {s : Spec K} (hs : WF k s) (str : Str) :
    WF k (setUnit k s str).1 ∧ SameLight k s (setUnit k s str).1 := by
  unfold setUnit
  cases hu : strToUnit k str with
  | error e => exact ⟨hs, SameLight.refl k s⟩
  | ok u =>
    simp only
    split
    · exact ⟨hs, SameLight.refl k s⟩
    · cases ha : applyUnits k s s.unit u with
      | error e => exact ⟨hs, SameLight.refl k s⟩
      | ok s' => exact applyUnits_light k hs hu ha

/-- C67: whatever units are assigned one after the other (some of the assignments may be rejected), the spectrum keeps describing the
same light. -/
theorem unit_changes_keep_light (k : Consts K) (us : List Str) : ∀ {s : Spec K}, WF k s →
    WF k (us.foldl (fun s u => (setUnit k s u).1) s) ∧ SameLight k s (us.foldl (fun s u => (setUnit k s u).1) s) := by
  induction us with
  | nil => intro s hs; exact ⟨hs, SameLight.refl k s⟩
  | cons u us ih =>
    intro s hs
    have h := setUnit_light k hs u
    have h' := ih h.1
    exact ⟨h'.1, h.2.trans h'.2⟩

/-- Light and unit determine the numbers. -/
theorem light_determines (k : Consts K) {s t : Spec K} (hs : WF k s) (ht : WF k t) (hl : SameLight k s t) (hu : t.unit.str = s.unit.str) :
    t.unit = s.unit ∧ t.x = s.x ∧ t.flux = s.flux ∧ t.err = s.err := by
  have hu' : t.unit = s.unit := unit_eq_of_str k _ _ (wf_scale k ht).1 (wf_scale k hs).1 hu
  obtain ⟨h1, h2, h3⟩ := hl
  have hlen : t.x.length = s.x.length := by simpa using congrArg List.length h1
  have hx : t.x = s.x := by
    apply List.ext_getElem hlen
    intro i hi hi'
    have := List.getElem_of_eq h1 (i := i) (by simpa using hi)
    simp only [List.getElem_map, hu'] at this
    exact photonEnergy_inj k (wf_scale k hs).2 (ht.nz _ (List.getElem_mem _)) (hs.nz _ (List.getElem_mem _)) this
  refine ⟨hu', hx, ?_, ?_⟩
  · apply List.ext_getElem
    · rw [ht.flen, hs.flen, hlen]
    · intro i hi hi'
      have hix : i < s.x.length := by rw [← hs.flen]; exact hi'
      have := List.getElem_of_eq h2 (i := i) (by simp [ht.flen, hlen, hix])
      simp only [List.getElem_zipWith, hx] at this
      exact mul_left_cancel₀ (hs.nz _ (List.getElem_mem _)) this
  · apply List.ext_getElem
    · rw [ht.elen, hs.elen, hlen]
    · intro i hi hi'
      have hix : i < s.x.length := by rw [← hs.elen]; exact hi'
      have := List.getElem_of_eq h3 (i := i) (by simp [ht.elen, hlen, hix])
      simp only [List.getElem_zipWith, hx] at this
      exact mul_left_cancel₀ (hs.nz _ (List.getElem_mem _)) this

/-- C67: after any number of unit assignments that end in the unit the spectrum had at first, x axis, flux and error are what they were. -/
theorem unit_roundtrip (k : Consts K) (us : List Str) {s : Spec K} (hs : WF k s)
    (h : (us.foldl (fun s u => (setUnit k s u).1) s).unit.str = s.unit.str) :
    (us.foldl (fun s u => (setUnit k s u).1) s).x = s.x ∧ (us.foldl (fun s u => (setUnit k s u).1) s).flux = s.flux ∧
    (us.foldl (fun s u => (setUnit k s u).1) s).err = s.err := by
  have := unit_changes_keep_light k us hs
  exact (light_determines k hs this.1 this.2 h).2

/-- C67: the way taken does not matter: two histories that end in the same unit end with the same numbers. -/
theorem unit_path_independent (k : Consts K) (us vs : List Str) {s : Spec K} (hs : WF k s)
    (h : (us.foldl (fun s u => (setUnit k s u).1) s).unit.str = (vs.foldl (fun s u => (setUnit k s u).1) s).unit.str) :
    (us.foldl (fun s u => (setUnit k s u).1) s).x = (vs.foldl (fun s u => (setUnit k s u).1) s).x ∧
    (us.foldl (fun s u => (setUnit k s u).1) s).flux = (vs.foldl (fun s u => (setUnit k s u).1) s).flux ∧
    (us.foldl (fun s u => (setUnit k s u).1) s).err = (vs.foldl (fun s u => (setUnit k s u).1) s).err := by
  have h1 := unit_changes_keep_light k us hs
  have h2 := unit_changes_keep_light k vs hs
  have hl : SameLight k (vs.foldl (fun s u => (setUnit k s u).1) s) (us.foldl (fun s u => (setUnit k s u).1) s) :=
    ⟨h1.2.1.trans h2.2.1.symm, h1.2.2.1.trans h2.2.2.1.symm, h1.2.2.2.trans h2.2.2.2.symm⟩
  exact (light_determines k h2.1 h1.1 hl h).2

/-- The array continuum has the shape of the spectrum. -/
def ContFits (s : Spec K) : Prop := ∀ v, s.cont = .arr v → v.length = s.x.length

/-- C67: an assignment of a recognised unit succeeds, and the spectrum then has that unit, exactly if no continuum operation is pending
(or the unit is the current one). -/
theorem setUnit_effect (k : Consts K) {s : Spec K} (hs : WF k s) (hc : ContFits s) {str : Str} {u : Unit K} (hu : strToUnit k str = .ok u) :
    ((s.contop = none ∨ u = s.unit) → (setUnit k s str).2 = none ∧ (setUnit k s str).1.unit = u) ∧
    (¬(s.contop = none ∨ u = s.unit) → setUnit k s str = (s, some .value)) := by
  have hmem := strToUnit_mem k str _ hu
  unfold setUnit
  simp only [hu]
  constructor
  · intro h
    split
    · rename_i he
      exact ⟨rfl, (unit_eq_of_name k _ _ hmem (wf_scale k hs).1 he.1).symm⟩
    · rename_i hne
      have hct : s.contop = none := by
        rcases h with h | h
        · exact h
        · exact absurd (by simp [h]) hne
      cases ha : applyUnits k s s.unit u with
      | ok s' => exact ⟨rfl, (applyUnits_ok k ha).2.2.1⟩
      | error e =>
        exfalso
        unfold applyUnits at ha
        simp only [hct, Option.isSome_none, Bool.false_eq_true, if_false] at ha
        cases hcont : s.cont with
        | none => simp [hcont] at ha
        | model f => simp [hcont] at ha
        | arr v => simp [hcont, hc v hcont] at ha
  · intro h
    rw [not_or] at h
    rw [if_neg]
    · have hct : s.contop.isSome := by
        cases hco : s.contop with
        | none => exact absurd hco h.1
        | some _ => rfl
      simp [applyUnits, hct]
    · intro he
      exact h.2 (unit_eq_of_name k _ _ hmem (wf_scale k hs).1 he.1)

/-- C67: a word that is no unit is rejected without effect. -/
theorem setUnit_unknown (k : Consts K) (s : Spec K) (str : Str) (h : lower str ∉ words) : setUnit k s str = (s, some .value) := by
  have : ∀ u, strToUnit k str ≠ .ok u := fun u hu => h ((unit_accepted_iff k str).1 ⟨u, hu⟩)
  unfold setUnit
  cases hu : strToUnit k str with
  | ok u => exact absurd hu (this u)
  | error e =>
    rw [strToUnit_error k str e hu]

end Verif.Spectrum

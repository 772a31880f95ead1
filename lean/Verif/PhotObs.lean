import Mathlib.Tactic.Linarith
import Mathlib.Tactic.Ring
import Mathlib.Tactic.FieldSimp
import Verif.Phot

/-!
# PhotObservation (astropysics/phot.py 871-996)

One measurement per band (one-dimensional values).
-/

namespace Verif.PhotObs

open Verif.Phot (fluxToMag magToFlux magerrToFluxerr fluxerrToMagerr a)

/-- The attributes: `_mags`, `_values`, `_err`. -/
structure Obs where
  mags : Bool
  vals : List ℝ
  err : List ℝ

inductive Err
  | value | name
deriving DecidableEq, Repr

/-- `mag` getter, phot.py 918-930: for stored fluxes it calls `_flux_to_mags`, a name that does not exist. -/
def getMag (o : Obs) : Except Err (List ℝ) := if o.mags then .ok o.vals else .error .name

/-- `mag` setter, phot.py 931-935 (`n` is the number of bands). -/
def setMag (n : Nat) (o : Obs) (v : List ℝ) : Except Err Obs :=
  if v.length ≠ n then .error .value else .ok { o with mags := true, vals := v }

/-- `magerr` getter, phot.py 937-942. -/
noncomputable def getMagErr (o : Obs) : List ℝ := if o.mags then o.err else List.zipWith fluxerrToMagerr o.err o.vals

/-- `magerr` setter, phot.py 943-951. -/
noncomputable def setMagErr (o : Obs) (v : List ℝ) : Except Err Obs :=
  if v.length ≠ o.vals.length then .error .value
  else if o.mags then .ok { o with err := v }
  else match getMag o with
    | .error e => .error e
    | .ok m => .ok { o with err := List.zipWith magerrToFluxerr v m }

/-- `flux` getter, phot.py 954-966 (`z` are the zero point fluxes of the bands). -/
noncomputable def getFlux (z : List ℝ) (o : Obs) : List ℝ := if o.mags then List.zipWith (fun z m => z * magToFlux m) z o.vals else o.vals

/-- `flux` setter, phot.py 967-971. -/
def setFlux (n : Nat) (o : Obs) (v : List ℝ) : Except Err Obs :=
  if v.length ≠ n then .error .value else .ok { o with mags := false, vals := v }

/-- `fluxerr` getter, phot.py 973-984. -/
noncomputable def getFluxErr (z : List ℝ) (o : Obs) : List ℝ :=
  if o.mags then List.zipWith (fun z e => z * e) z (List.zipWith magerrToFluxerr o.err o.vals) else o.err

/-- `fluxerr` setter, phot.py 985-993: for stored magnitudes the conversion is given the magnitudes where it expects fluxes. -/
noncomputable def setFluxErr (o : Obs) (v : List ℝ) : Except Err Obs :=
  if v.length ≠ o.vals.length then .error .value
  else if o.mags then .ok { o with err := List.zipWith fluxerrToMagerr v o.vals }
  else .ok { o with err := v }

/-- `PhotObservation(bands,values,errs,asmags)`, phot.py 882-899; `errs` None is zero; a scalar is repeated by the caller here. -/
noncomputable def construct (n : Nat) (v : List ℝ) (errs : Option (List ℝ)) (asmags : Bool) : Except Err Obs :=
  if v.length ≠ n then .error .value
  else
    let e := errs.getD (List.replicate v.length 0)
    if e.length ≠ v.length then .error .value else .ok ⟨asmags, v, e⟩

/-- Assignments to an observation. -/
inductive Op
  | mag (v : List ℝ) | magerr (v : List ℝ) | flux (v : List ℝ) | fluxerr (v : List ℝ)

noncomputable def step (n : Nat) (o : Obs) : Op → Except Err Obs
  | .mag v => setMag n o v
  | .magerr v => setMagErr o v
  | .flux v => setFlux n o v
  | .fluxerr v => setFluxErr o v

/-- A history; an assignment that raises leaves the object as it was. -/
noncomputable def run (n : Nat) : Obs → List Op → Obs
  | o, [] => o
  | o, op :: ops => match step n o op with
    | .ok o' => run n o' ops
    | .error _ => run n o ops

/-! ## Properties -/

/-- After any history there is one value and one error per band. -/
theorem sizes (n : Nat) (v : List ℝ) (errs : Option (List ℝ)) (asmags : Bool) (o : Obs) (h : construct n v errs asmags = .ok o)
    (ops : List Op) (z : List ℝ) (hz : z.length = n) :
    (run n o ops).vals.length = n ∧ (run n o ops).err.length = n ∧ (getFlux z (run n o ops)).length = n ∧
    (getFluxErr z (run n o ops)).length = n ∧ (getMagErr (run n o ops)).length = n := by
  have h0 : o.vals.length = n ∧ o.err.length = n := by
    simp only [construct] at h
    split_ifs at h with h1 h2
    simp only [Except.ok.injEq] at h
    subst h
    simp only [not_not] at h1 h2
    exact ⟨h1, h2.trans h1⟩
  have key : ∀ (ops : List Op) (o : Obs), o.vals.length = n ∧ o.err.length = n → (run n o ops).vals.length = n ∧ (run n o ops).err.length = n := by
    intro ops
    induction ops with
    | nil => intro o h; exact h
    | cons op ops ih =>
      intro o ho
      simp only [run]
      cases hs : step n o op with
      | error e => exact ih o ho
      | ok o' =>
        apply ih
        cases op with
        | mag v =>
          simp only [step, setMag] at hs
          split_ifs at hs with h1
          simp only [Except.ok.injEq] at hs; subst hs
          exact ⟨not_not.1 h1, ho.2⟩
        | magerr v =>
          simp only [step, setMagErr] at hs
          split_ifs at hs with h1 h2
          · simp only [Except.ok.injEq] at hs; subst hs
            exact ⟨ho.1, (not_not.1 h1).trans ho.1⟩
          · simp [getMag, h2] at hs
        | flux v =>
          simp only [step, setFlux] at hs
          split_ifs at hs with h1
          simp only [Except.ok.injEq] at hs; subst hs
          exact ⟨not_not.1 h1, ho.2⟩
        | fluxerr v =>
          simp only [step, setFluxErr] at hs
          split_ifs at hs with h1 h2
          · simp only [Except.ok.injEq] at hs; subst hs
            refine ⟨ho.1, ?_⟩
            simp only [List.length_zipWith]
            rw [not_not.1 h1, ho.1, Nat.min_self]
          · simp only [Except.ok.injEq] at hs; subst hs
            exact ⟨ho.1, (not_not.1 h1).trans ho.1⟩
  obtain ⟨k1, k2⟩ := key ops o h0
  refine ⟨k1, k2, ?_, ?_, ?_⟩
  · unfold getFlux; split_ifs <;> simp [hz, k1]
  · unfold getFluxErr; split_ifs <;> simp [hz, k1, k2]
  · unfold getMagErr; split_ifs <;> simp [k1, k2]

/-- Magnitudes that are assigned (or given at construction) are read back, and their fluxes are those of the magnitude system times the
zero points; wrong numbers of values are refused. -/
theorem assigned_magnitudes (n : Nat) (o : Obs) (v z : List ℝ) :
    (v.length = n → ∃ o', setMag n o v = .ok o' ∧ getMag o' = .ok v ∧ getFlux z o' = List.zipWith (fun z m => z * magToFlux m) z v) ∧
    (v.length ≠ n → setMag n o v = .error .value ∧ setFlux n o v = .error .value) ∧
    (v.length = n → ∃ o', setFlux n o v = .ok o' ∧ getFlux z o' = v) := by
  refine ⟨?_, ?_, ?_⟩
  · intro h
    exact ⟨⟨true, v, o.err⟩, by simp [setMag, h], rfl, rfl⟩
  · intro h; simp [setMag, setFlux, h]
  · intro h
    exact ⟨⟨false, v, o.err⟩, by simp [setFlux, h], rfl⟩

/-- A new observation reads as it was made: values and errors as magnitudes or as fluxes; no errors are zero errors; a wrong number of values or
errors raises. -/
theorem constructed (n : Nat) (v z : List ℝ) (errs : Option (List ℝ)) (asmags : Bool) :
    (v.length = n → (∀ e, errs = some e → e.length = n) → ∃ o, construct n v errs asmags = .ok o ∧
      (asmags = true → getMag o = .ok v ∧ getMagErr o = errs.getD (List.replicate n 0)) ∧
      (asmags = false → getFlux z o = v ∧ getFluxErr z o = errs.getD (List.replicate n 0))) ∧
    (v.length ≠ n ∨ (∃ e, errs = some e ∧ e.length ≠ v.length) → construct n v errs asmags = .error .value) := by
  constructor
  · rintro rfl he
    have hl : (errs.getD (List.replicate v.length 0)).length = v.length := by
      cases errs with
      | none => simp
      | some e => simpa using he e rfl
    refine ⟨⟨asmags, v, errs.getD (List.replicate v.length 0)⟩, by simp [construct, hl], ?_, ?_⟩
    · rintro rfl; exact ⟨rfl, rfl⟩
    · rintro rfl; exact ⟨rfl, rfl⟩
  · rintro (h | ⟨e, rfl, he⟩)
    · simp [construct, h]
    · unfold construct
      split_ifs <;> simp_all

/-- The magnitude of a flux measurement can never be read, nor its magnitude error set: NameError. -/
theorem flux_magnitudes_fail (n : Nat) (o : Obs) (v w : List ℝ) (hv : v.length = n) (hw : w.length = n) :
    ∃ o', setFlux n o v = .ok o' ∧ getMag o' = .error .name ∧ setMagErr o' w = .error .name := by
  refine ⟨⟨false, v, o.err⟩, by simp [setFlux, hv], rfl, ?_⟩
  simp [setMagErr, getMag, hv, hw]

/-- Specification: an error in flux and one in magnitudes describe the same uncertainty (to first order) of a measurement
with magnitude `m` and zero point flux `z`. -/
def SameError (z m dm df : ℝ) : Prop := df = z * magerrToFluxerr dm m

/-- For a magnitude measurement the flux errors are those of the magnitude errors; for a flux measurement the magnitude errors are those of the
flux errors (the magnitude being the one of the flux over the zero point). -/
theorem errors_consistent (o : Obs) (z : List ℝ) (n : Nat) (hz : z.length = n) (hv : o.vals.length = n) (he : o.err.length = n) (i : Nat)
    (hi : i < n) (hpos : ∀ x ∈ z, 0 < x) (hvpos : o.mags = false → ∀ x ∈ o.vals, 0 < x) :
    ∃ zi dm df, z[i]? = some zi ∧ (getMagErr o)[i]? = some dm ∧ (getFluxErr z o)[i]? = some df ∧
      (o.mags = true → ∃ m, o.vals[i]? = some m ∧ SameError zi m dm df) ∧
      (o.mags = false → ∃ f, o.vals[i]? = some f ∧ SameError zi (fluxToMag (f / zi)) dm df) := by
  have e1 : z[i]? = some z[i] := List.getElem?_eq_getElem (by omega)
  have e2 : o.vals[i]? = some o.vals[i] := List.getElem?_eq_getElem (by omega)
  have e3 : o.err[i]? = some o.err[i] := List.getElem?_eq_getElem (by omega)
  cases hm : o.mags with
  | true =>
    refine ⟨z[i], o.err[i], z[i] * magerrToFluxerr o.err[i] o.vals[i], e1, ?_, ?_, ?_, by simp⟩
    · simp [getMagErr, hm, e3]
    · simp [getFluxErr, hm, List.getElem?_zipWith, e1, e2, e3]
    · intro _; exact ⟨_, e2, rfl⟩
  | false =>
    have hzi : 0 < z[i] := hpos _ (List.getElem_mem _)
    have hfi : 0 < o.vals[i] := hvpos hm _ (List.getElem_mem _)
    refine ⟨z[i], fluxerrToMagerr o.err[i] o.vals[i], o.err[i], e1, ?_, ?_, by simp, ?_⟩
    · simp [getMagErr, hm, List.getElem?_zipWith, e2, e3]
    · simp [getFluxErr, hm, e3]
    · intro _
      refine ⟨_, e2, ?_⟩
      unfold SameError magerrToFluxerr
      rw [Verif.Phot.mag_flux_roundtrip.2 _ (by positivity)]
      unfold fluxerrToMagerr
      have := Verif.Phot.a_ne
      field_simp

/-- Errors assigned in the representation of the values are read back. -/
theorem assigned_errors (o : Obs) (v z : List ℝ) (h : v.length = o.vals.length) :
    (o.mags = true → ∃ o', setMagErr o v = .ok o' ∧ getMagErr o' = v ∧ o'.vals = o.vals ∧ o'.mags = o.mags) ∧
    (o.mags = false → ∃ o', setFluxErr o v = .ok o' ∧ getFluxErr z o' = v ∧ o'.vals = o.vals ∧ o'.mags = o.mags) := by
  constructor
  · intro hm
    exact ⟨{ o with err := v }, by simp [setMagErr, h, hm], by simp [getMagErr, hm], rfl, rfl⟩
  · intro hm
    exact ⟨{ o with err := v }, by simp [setFluxErr, h, hm], by simp [getFluxErr, hm], rfl, rfl⟩

/-- A flux error assigned to a magnitude measurement is not read back: for a single band with zero point flux 1 it comes back only if the
magnitude happens to equal the flux (or the error is 0). -/
theorem fluxerr_lost (m v : ℝ) (hm : m ≠ 0) (e : List ℝ) :
    ∃ o' w, setFluxErr ⟨true, [m], e⟩ [v] = .ok o' ∧ getFluxErr [1] o' = [w] ∧ (w = v ↔ v = 0 ∨ magToFlux m = m) := by
  refine ⟨⟨true, [m], [fluxerrToMagerr v m]⟩, 1 * magerrToFluxerr (fluxerrToMagerr v m) m, by simp [setFluxErr], by simp [getFluxErr], ?_⟩
  have ha := Verif.Phot.a_ne
  have e1 : 1 * magerrToFluxerr (fluxerrToMagerr v m) m = v * magToFlux m / m := by
    unfold magerrToFluxerr fluxerrToMagerr
    field_simp
  rw [e1, div_eq_iff hm]
  constructor
  · intro h
    by_cases hv : v = 0
    · exact Or.inl hv
    · exact Or.inr (mul_left_cancel₀ hv h)
  · rintro (h | h)
    · rw [h]; ring
    · rw [h]

/-- Assigning fluxes to a magnitude measurement keeps the numbers of the magnitude errors as flux errors (and the other way round). -/
theorem errors_reinterpreted (n : Nat) (o : Obs) (v z : List ℝ) (hv : v.length = n) :
    (o.mags = true → ∃ o', setFlux n o v = .ok o' ∧ getFluxErr z o' = getMagErr o) ∧
    (o.mags = false → ∃ o', setMag n o v = .ok o' ∧ getMagErr o' = getFluxErr z o) := by
  constructor
  · intro hm
    exact ⟨⟨false, v, o.err⟩, by simp [setFlux, hv], by simp [getFluxErr, getMagErr, hm]⟩
  · intro hm
    exact ⟨⟨true, v, o.err⟩, by simp [setMag, hv], by simp [getFluxErr, getMagErr, hm]⟩

example : ∃ o, construct 2 [17, 18] (some [0.1, 0.2]) true = .ok o ∧ (run 2 o [.flux [1, 2, 3], .mag [16, 17], .magerr [0.3, 0.3]]).vals = [16, 17] := by
  refine ⟨⟨true, [17, 18], [0.1, 0.2]⟩, by simp [construct], ?_⟩
  simp [run, step, setFlux, setMag, setMagErr]

end Verif.PhotObs

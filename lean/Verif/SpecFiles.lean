import Mathlib.Analysis.Real.Sqrt
import Mathlib.Data.List.Sort
import Mathlib.Tactic.Linarith
import Mathlib.Tactic.Positivity

/-!
# Spectra from FITS files (astropysics/utils/io.py 1349-1546, astropysics/spec.py 305-359, 627-670) (C176, C177)

Files are lists of HDUs.  Real arithmetic; the reciprocal and root of 0 (numpy's inf) are not modelled, nor negative extension numbers; units stay the default.
-/

namespace Verif.SpecFiles

noncomputable section

abbrev Text := List Char

/-- Exceptions. -/
inductive Err
  | value | io | index | type | key | attribute | unboundLocal
  deriving DecidableEq

/-- The data of an HDU: none, a vector, a matrix (its rows, all of the given width). -/
inductive Data
  | none
  | vec (v : List ℝ)
  | mat (width : ℕ) (rows : List (List ℝ))

/-- An HDU with the header keywords that matter: CRVAL1, CD1_1, CDELT1, CTYPE1, CRPIX1. -/
structure Hdu where
  crval : Option ℝ
  cd : Option ℝ
  cdelt : Option ℝ
  ctype : Option Text
  crpix : Option ℝ
  data : Data

/-- A pixel: wavelength, flux, error. -/
abbrev Pix := ℝ × ℝ × ℝ

/-- io.py 1381. -/
def Hdu.wcs (h : Hdu) : Bool := h.crval.isSome && (h.cd.isSome || h.cdelt.isSome)

/-- `sorti = np.argsort(x)`, spec.py 344-348. -/
def sortPix (l : List Pix) : List Pix := l.mergeSort (fun a b => decide (a.1 ≤ b.1))

/-- `Spectrum(x,flux,err=err)` for one-dimensional `x` and `flux`, spec.py 315-348; `ivar` likewise. -/
inductive ErrArg
  | none | err (d : Data) | ivar (d : Data)

/-- The errors, spec.py 320-337. -/
def errors (n : ℕ) : ErrArg → Except Err (List ℝ)
  | .none => .ok (List.replicate n 0)
  | .err (.vec e) => if e.length = n then .ok (e.map fun v => |v|) else .error .value
  | .ivar (.vec e) => if e.length = n then .ok (e.map fun v => (√v)⁻¹) else .error .value
  | .err .none => .ok (List.replicate n 0)
  | .ivar .none => .ok (List.replicate n 0)
  | .err (.mat _ _) => .error .value
  | .ivar (.mat _ _) => .error .value

/-- `1/err`: of None a TypeError. -/
def recip : Data → Except Err Data
  | .none => .error .type
  | .vec v => .ok (.vec (v.map fun a => 1 / a))
  | .mat w rows => .ok (.mat w (rows.map fun r => r.map fun a => 1 / a))

/-- io.py 1414-1422. -/
def errArg (errtype : Text) (err : Data) : Except Err ErrArg :=
  if errtype = "err".toList then .ok (.err err)
  else if errtype = "ierr".toList then (recip err).map .err
  else if errtype = "var".toList then (recip err).map .ivar
  else if errtype = "ivar".toList then .ok (.ivar err)
  else .error .value

/-- `f[ext]`. -/
def getHdu (f : List Hdu) (i : ℕ) : Except Err Hdu := match f[i]? with
  | some h => .ok h
  | none => .error .index

/-- `np.arange(n)*dispersion+crval`, io.py 1407. -/
def axis (crval d : ℝ) (n : ℕ) : List ℝ := (List.range n).map fun (i : ℕ) => (i : ℝ) * d + crval

/-- io.py 1389-1397: the dispersion and first wavelength of a header. -/
def dispersion (h : Hdu) : Except Err (ℝ × ℝ) :=
  match h.ctype with
  | some t => if t = "LINEAR".toList then go h else .error .value
  | none => go h
where
  go (h : Hdu) : Except Err (ℝ × ℝ) := match h.crval with
    | none => .error .value
    | some c => match h.cd with
      | some d => .ok (c, d)
      | none => match h.cdelt with
        | some d => .ok (c, d)
        | none => .error .value

/-- `flux`, io.py 1402-1405; a matrix of other than one row is refused by the constructor of Spectrum (`x` is a vector), spec.py 317. -/
def fluxOf : Data → Except Err (List ℝ)
  | .none => .error .attribute
  | .vec v => .ok v
  | .mat _ [r] => .ok r
  | .mat _ _ => .error .value

/-- io.py 1402-1425: from the header and the flux to the spectrum. -/
def build (f : List Hdu) (hdr fl : Hdu) (errext : Option ℕ) (errtype : Text) : Except Err (List Pix) :=
  match dispersion hdr with
  | .error e => .error e
  | .ok (c, d) => match fl.data with
    | .none => .error .attribute
    | dat =>
      match (match errext with
        | none => Except.ok Data.none
        | some k => (getHdu f k).map Hdu.data) with
      | .error e => .error e
      | .ok err => match errArg errtype err with
        | .error e => .error e
        | .ok arg => match fluxOf dat with
          | .error e => .error e
          | .ok flux => match errors flux.length arg with
            | .error e => .error e
            | .ok es => .ok (sortPix (List.zip (axis c d flux.length) (List.zip flux es)))

/-- `load_wcs_spectrum`, io.py 1349-1427. -/
def loadWcs (f : List Hdu) (fluxext errext hdrext : Option ℕ) (errtype : Text) : Except Err (List Pix) :=
  match fluxext with
  | none => match f.findIdx? Hdu.wcs with
    | none => .error .io
    | some i => match getHdu f i with
      | .error e => .error e
      | .ok h => build f h h errext errtype
  | some i => match getHdu f (hdrext.getD i) with
    | .error e => .error e
    | .ok hdr => match getHdu f i with
      | .error e => .error e
      | .ok fl => build f hdr fl errext errtype

/-! ## C176 -/

/-- A proper spectrum: a linear (or unspecified) axis, first wavelength and dispersion, CD1_1 before CDELT1. -/
def Axis (h : Hdu) (c d : ℝ) : Prop :=
  (h.ctype = none ∨ h.ctype = some "LINEAR".toList) ∧ h.crval = some c ∧ (h.cd = some d ∨ h.cd = none ∧ h.cdelt = some d)

/-- The flux of an HDU: a vector or a matrix of one row. -/
def Flux (h : Hdu) (v : List ℝ) : Prop := h.data = .vec v ∨ ∃ w, h.data = .mat w [v]

theorem dispersion_iff (h : Hdu) (c d : ℝ) : dispersion h = .ok (c, d) ↔ Axis h c d := by
  obtain ⟨cv, cd, cl, ct, cp, dat⟩ := h
  unfold Axis dispersion dispersion.go
  cases ct with
  | none => cases cv <;> cases cd <;> cases cl <;> simp
  | some t =>
    simp only [reduceCtorEq, Option.some.injEq, false_or]
    by_cases ht : t = "LINEAR".toList
    · rw [if_pos ht]; cases cv <;> cases cd <;> cases cl <;> simp [ht]
    · rw [if_neg ht]; simp only [reduceCtorEq, ht, false_and]

/-- C176.  Which HDU is used: without an extension the first with the keywords CRVAL1 and CD1_1 or CDELT1, whatever `hdrext` says, and IOError exactly if there is none. -/
theorem chosen (f : List Hdu) (errext hdrext : Option ℕ) (errtype : Text) :
    (loadWcs f none errext hdrext errtype = .error .io ↔ (∀ h ∈ f, ¬ (h.crval ≠ none ∧ (h.cd ≠ none ∨ h.cdelt ≠ none))) ∨
      ∃ (i : ℕ) (h : Hdu), f[i]? = some h ∧ build f h h errext errtype = .error .io ∧ f.findIdx? Hdu.wcs = some i) ∧
    ∀ (i : ℕ) (h : Hdu), f[i]? = some h → (h.crval ≠ none ∧ (h.cd ≠ none ∨ h.cdelt ≠ none)) →
      (∀ (j : ℕ) (g : Hdu), j < i → f[j]? = some g → ¬ (g.crval ≠ none ∧ (g.cd ≠ none ∨ g.cdelt ≠ none))) →
      loadWcs f none errext hdrext errtype = loadWcs f (some i) errext none errtype := by
  have hw : ∀ h : Hdu, h.wcs = true ↔ h.crval ≠ none ∧ (h.cd ≠ none ∨ h.cdelt ≠ none) := by
    intro h; simp [Hdu.wcs, Option.isSome_iff_ne_none]
  constructor
  · cases hf : f.findIdx? Hdu.wcs with
    | none =>
      have h1 : loadWcs f none errext hdrext errtype = .error .io := by simp [loadWcs, hf]
      simp only [h1, reduceCtorEq, and_false, exists_false, or_false, true_iff]
      intro h hh
      rw [← hw]
      simpa using List.findIdx?_eq_none_iff.1 hf h hh
    | some i =>
      obtain ⟨hlt, hi⟩ := List.findIdx?_eq_some_iff_getElem.1 hf
      have h1 : loadWcs f none errext hdrext errtype = build f f[i] f[i] errext errtype := by simp [loadWcs, hf, getHdu, hlt]
      rw [h1]
      constructor
      · intro h
        exact .inr ⟨i, f[i], by simp [hlt], h, rfl⟩
      · rintro (h | ⟨j, g, hj, hb, he⟩)
        · exact absurd ((hw _).1 hi.1) (h _ (List.getElem_mem hlt))
        · cases he
          rw [List.getElem?_eq_getElem hlt] at hj
          cases hj
          exact hb
  · intro i h hi hwc hfirst
    have hlt : i < f.length := (List.getElem?_eq_some_iff.1 hi).1
    have hf : f.findIdx? Hdu.wcs = some i := by
      rw [List.findIdx?_eq_some_iff_getElem]
      refine ⟨hlt, ?_, ?_⟩
      · rw [List.getElem?_eq_getElem hlt] at hi
        cases hi
        exact (hw _).2 hwc
      · intro j hj
        rw [Bool.not_eq_true, ← Bool.not_eq_true, hw]
        exact hfirst j f[j] hj (List.getElem?_eq_getElem (hj.trans hlt))
    simp [loadWcs, hf, getHdu, hi]

theorem build_not_io (f : List Hdu) (hdr fl : Hdu) (errext : Option ℕ) (errtype : Text) : build f hdr fl errext errtype ≠ .error .io := by
  have a1 : dispersion hdr ≠ .error .io := by
    obtain ⟨cv, cd, cl, ct, cp, dat⟩ := hdr
    unfold dispersion dispersion.go
    cases ct with
    | none => cases cv <;> cases cd <;> cases cl <;> simp
    | some t =>
      simp only
      split
      · cases cv <;> cases cd <;> cases cl <;> simp
      · simp
  have a2 : ∀ t d, errArg t d ≠ .error .io := by
    intro t d
    unfold errArg
    split_ifs
    · simp
    · cases d <;> simp [recip, Except.map]
    · cases d <;> simp [recip, Except.map]
    · simp
    · simp
  have a3 : ∀ d, fluxOf d ≠ .error .io := by
    intro d
    unfold fluxOf
    split <;> simp
  have a4 : ∀ n a, errors n a ≠ .error .io := by
    intro n a
    unfold errors
    split <;> (try split_ifs) <;> simp
  unfold build
  cases h : dispersion hdr with
  | error e => intro hc; exact a1 (by rw [h]; simpa using hc)
  | ok cd =>
    obtain ⟨c, d⟩ := cd
    simp only
    split
    · simp
    · split
      · rename_i e he
        intro hc
        cases errext with
        | none => simp at he
        | some k =>
          simp only [getHdu] at he
          cases hk : f[k]? with
          | none => rw [hk] at he; simp [Except.map] at he; subst he; simp at hc
          | some g => rw [hk] at he; simp [Except.map] at he
      · split
        · rename_i h2; intro hc; exact a2 _ _ (by rw [h2]; simpa using hc)
        · split
          · rename_i h2; intro hc; exact a3 _ (by rw [h2]; simpa using hc)
          · split
            · rename_i h2; intro hc; exact a4 _ _ (by rw [h2]; simpa using hc)
            · simp

/-- C176.  Hence IOError exactly if no HDU has the keywords. -/
theorem io_iff (f : List Hdu) (errext hdrext : Option ℕ) (errtype : Text) :
    loadWcs f none errext hdrext errtype = .error .io ↔ ∀ h ∈ f, ¬ (h.crval ≠ none ∧ (h.cd ≠ none ∨ h.cdelt ≠ none)) := by
  rw [(chosen f errext hdrext errtype).1]
  constructor
  · rintro (h | ⟨i, h, _, hb, _⟩)
    · exact h
    · exact absurd hb (build_not_io _ _ _ _ _)
  · exact .inl

/-- What the numbers of the error extension stand for, by `errtype`: the error is this function of the number. -/
def ErrKind (errtype : Text) (g : ℝ → ℝ) : Prop :=
  (errtype = "err".toList ∧ g = fun v => |v|) ∨ (errtype = "ierr".toList ∧ g = fun v => |1 / v|) ∨
    (errtype = "var".toList ∧ g = fun v => (√(1 / v))⁻¹) ∨ (errtype = "ivar".toList ∧ g = fun v => (√v)⁻¹)

theorem sortPix_perm (l : List Pix) : (sortPix l).Perm l := List.mergeSort_perm l _

theorem sortPix_sorted (l : List Pix) : (sortPix l).Pairwise (fun a b => a.1 ≤ b.1) := by
  have := List.pairwise_mergeSort (le := fun (a b : Pix) => decide (a.1 ≤ b.1)) (fun a b c h1 h2 => by
    simp only [decide_eq_true_eq] at *; exact le_trans h1 h2) (fun a b => by simp only [Bool.or_eq_true, decide_eq_true_eq]; exact le_total _ _) l
  exact this.imp (fun h => by simpa using h)

theorem errors_kind {errtype : Text} {g : ℝ → ℝ} (h : ErrKind errtype g) (ev : List ℝ) :
    ∃ arg, errArg errtype (.vec ev) = .ok arg ∧ errors ev.length arg = .ok (ev.map g) := by
  have e1 : "ierr".toList ≠ "err".toList := by decide
  have e2 : "var".toList ≠ "err".toList := by decide
  have e3 : "ivar".toList ≠ "err".toList := by decide
  have e4 : "var".toList ≠ "ierr".toList := by decide
  have e5 : "ivar".toList ≠ "ierr".toList := by decide
  have e6 : "ivar".toList ≠ "var".toList := by decide
  rcases h with ⟨rfl, rfl⟩ | ⟨rfl, rfl⟩ | ⟨rfl, rfl⟩ | ⟨rfl, rfl⟩
  · exact ⟨.err (.vec ev), by simp only [errArg, if_true], by simp only [errors, if_true]⟩
  · exact ⟨_, by simp only [errArg, if_neg e1, if_true, recip, Except.map]; rfl, by simp [errors, Function.comp_def]⟩
  · exact ⟨_, by simp only [errArg, if_neg e2, if_neg e4, if_true, recip, Except.map]; rfl, by simp [errors, Function.comp_def]⟩
  · exact ⟨.ivar (.vec ev), by simp only [errArg, if_neg e3, if_neg e5, if_neg e6, if_true], by simp only [errors, if_true]⟩

theorem zip_pixels (c d : ℝ) (flux es : List ℝ) (h : es.length = flux.length) :
    List.zip (axis c d flux.length) (List.zip flux es) = (List.range flux.length).map fun (j : ℕ) => (c + (j : ℝ) * d, flux.getD j 0, es.getD j 0) := by
  apply List.ext_getElem
  · simp [axis, h]
  · intro j h1 h2
    have hj : j < flux.length := by simpa using h2
    have hj' : j < es.length := by omega
    simp [axis, List.getElem_zip, hj, hj', add_comm]

/-- Loading ends in sorting the pixels. -/
theorem build_eq {f : List Hdu} {hdr fl : Hdu} {errext : Option ℕ} {errtype : Text} {c d : ℝ} {flux es : List ℝ} {err : Data} {arg : ErrArg} (ha : Axis hdr c d)
    (hf : Flux fl flux) (he : (match errext with | none => Except.ok Data.none | some k => (getHdu f k).map Hdu.data) = .ok err)
    (h1 : errArg errtype err = .ok arg) (h2 : errors flux.length arg = .ok es) (hl : es.length = flux.length) :
    build f hdr fl errext errtype = .ok (sortPix ((List.range flux.length).map fun (j : ℕ) => (c + (j : ℝ) * d, flux.getD j 0, es.getD j 0))) := by
  rw [← zip_pixels c d flux es hl]
  unfold build
  rw [(dispersion_iff hdr c d).2 ha]
  rcases hf with h | ⟨w, h⟩
  · simp only [h, he, h1, fluxOf, h2]
  · simp only [h, he, h1, fluxOf, h2]

/-- C176.  The spectrum, with errors from an extension: the pixels are, ordered by wavelength, those with the wavelength CRVAL1 + i * dispersion, the i-th flux and the error
the i-th entry of the error extension stands for. -/
theorem wcs_exact (f : List Hdu) (i k : ℕ) (hdrext : Option ℕ) (errtype : Text) (hdr fl he : Hdu) (c d : ℝ) (flux ev : List ℝ) (g : ℝ → ℝ)
    (h1 : f[hdrext.getD i]? = some hdr) (h2 : f[i]? = some fl) (h3 : f[k]? = some he) (ha : Axis hdr c d) (hf : Flux fl flux)
    (hv : he.data = .vec ev) (hl : ev.length = flux.length) (hk : ErrKind errtype g) :
    ∃ s, loadWcs f (some i) (some k) hdrext errtype = .ok s ∧ s.Pairwise (fun a b => a.1 ≤ b.1) ∧
      s.Perm ((List.range flux.length).map fun (j : ℕ) => (c + (j : ℝ) * d, flux.getD j 0, (ev.map g).getD j 0)) := by
  obtain ⟨arg, e1, e2⟩ := errors_kind hk ev
  refine ⟨_, ?_, sortPix_sorted _, sortPix_perm _⟩
  rw [hl] at e2
  simp only [loadWcs, getHdu, h1, h2]
  exact build_eq ha hf (err := .vec ev) (by simp [getHdu, h3, Except.map, hv]) e1 e2 (by simp [hl])

/-- C176.  Without an error extension the errors are 0 for 'err' and 'ivar'; 'ierr' and 'var' then raise TypeError, anything else ValueError. -/
theorem wcs_no_errors (f : List Hdu) (i : ℕ) (hdrext : Option ℕ) (errtype : Text) (hdr fl : Hdu) (c d : ℝ) (flux : List ℝ)
    (h1 : f[hdrext.getD i]? = some hdr) (h2 : f[i]? = some fl) (ha : Axis hdr c d) (hf : Flux fl flux) :
    (errtype = "err".toList ∨ errtype = "ivar".toList → ∃ s, loadWcs f (some i) none hdrext errtype = .ok s ∧ s.Pairwise (fun a b => a.1 ≤ b.1) ∧
      s.Perm ((List.range flux.length).map fun (j : ℕ) => (c + (j : ℝ) * d, flux.getD j 0, 0))) ∧
    (errtype = "ierr".toList ∨ errtype = "var".toList → loadWcs f (some i) none hdrext errtype = .error .type) ∧
    ((∀ g, ¬ ErrKind errtype g) → loadWcs f (some i) none hdrext errtype = .error .value) := by
  have e1 : "ierr".toList ≠ "err".toList := by decide
  have e2 : "var".toList ≠ "err".toList := by decide
  have e3 : "ivar".toList ≠ "err".toList := by decide
  have e4 : "var".toList ≠ "ierr".toList := by decide
  have e5 : "ivar".toList ≠ "ierr".toList := by decide
  have e6 : "ivar".toList ≠ "var".toList := by decide
  have hb : ∀ e, errArg errtype .none = .error e → build f hdr fl none errtype = .error e := by
    intro e he
    unfold build
    rw [(dispersion_iff hdr c d).2 ha]
    rcases hf with h | ⟨w, h⟩ <;> simp only [h, he]
  have hload : loadWcs f (some i) none hdrext errtype = build f hdr fl none errtype := by simp only [loadWcs, getHdu, h1, h2]
  rw [hload]
  refine ⟨?_, ?_, ?_⟩
  · intro h
    have hz : ((List.range flux.length).map fun (j : ℕ) => (c + (j : ℝ) * d, flux.getD j 0, (List.replicate flux.length (0 : ℝ)).getD j 0)) =
        (List.range flux.length).map fun (j : ℕ) => (c + (j : ℝ) * d, flux.getD j 0, 0) := by
      apply List.map_congr_left
      intro j hj
      have : j < flux.length := by simpa using hj
      simp [this]
    have key : build f hdr fl none errtype = .ok (sortPix ((List.range flux.length).map fun (j : ℕ) => (c + (j : ℝ) * d, flux.getD j 0, (List.replicate flux.length (0 : ℝ)).getD j 0))) := by
      rcases h with rfl | rfl
      · exact build_eq (errext := none) (f := f) (errtype := "err".toList) ha hf (err := .none) (arg := .err .none) rfl (by simp only [errArg, if_true]) rfl (by simp)
      · exact build_eq (errext := none) (f := f) (errtype := "ivar".toList) ha hf (err := .none) (arg := .ivar .none) rfl (by simp only [errArg, if_neg e3, if_neg e5, if_neg e6, if_true]) rfl (by simp)
    rw [hz] at key
    exact ⟨_, key, sortPix_sorted _, sortPix_perm _⟩
  · rintro (rfl | rfl)
    · exact hb _ (by simp only [errArg, if_neg e1, if_true, recip, Except.map])
    · exact hb _ (by simp only [errArg, if_neg e2, if_neg e4, if_true, recip, Except.map])
  · intro h
    apply hb
    have n1 : errtype ≠ "err".toList := fun e => h _ (.inl ⟨e, rfl⟩)
    have n2 : errtype ≠ "ierr".toList := fun e => h _ (.inr (.inl ⟨e, rfl⟩))
    have n3 : errtype ≠ "var".toList := fun e => h _ (.inr (.inr (.inl ⟨e, rfl⟩)))
    have n4 : errtype ≠ "ivar".toList := fun e => h _ (.inr (.inr (.inr ⟨e, rfl⟩)))
    simp only [errArg, if_neg n1, if_neg n2, if_neg n3, if_neg n4]

/-- C176.  A header that is not a linear axis is a ValueError. -/
theorem bad_header (f : List Hdu) (i : ℕ) (hdrext errext : Option ℕ) (errtype : Text) (hdr fl : Hdu) (h1 : f[hdrext.getD i]? = some hdr) (h2 : f[i]? = some fl)
    (h : ∀ c d, ¬ Axis hdr c d) : loadWcs f (some i) errext hdrext errtype = .error .value := by
  simp only [loadWcs, getHdu, h1, h2]
  have hd : dispersion hdr = .error .value := by
    cases hx : dispersion hdr with
    | ok p => exact absurd ((dispersion_iff hdr p.1 p.2).1 hx) (h _ _)
    | error e =>
      obtain ⟨cv, cd, cl, ct, cp, dat⟩ := hdr
      unfold dispersion dispersion.go at hx
      cases ct with
      | none => cases cv <;> cases cd <;> cases cl <;> simp at hx <;> rw [hx]
      | some t =>
        simp only at hx
        split at hx
        · cases cv <;> cases cd <;> cases cl <;> simp at hx <;> rw [hx]
        · simp at hx; rw [hx]
  simp only [build, hd]

/-- C176 (defect).  Errors in a matrix of one row, the form allowed for the flux, are refused. -/
theorem row_errors_refused (f : List Hdu) (i k : ℕ) (hdrext : Option ℕ) (errtype : Text) (g : ℝ → ℝ) (hdr fl he : Hdu) (c d : ℝ) (flux : List ℝ) (w : ℕ) (rows : List (List ℝ))
    (h1 : f[hdrext.getD i]? = some hdr) (h2 : f[i]? = some fl) (h3 : f[k]? = some he) (ha : Axis hdr c d) (hf : Flux fl flux)
    (hv : he.data = .mat w rows) (hk : ErrKind errtype g) : loadWcs f (some i) (some k) hdrext errtype = .error .value := by
  have e1 : "ierr".toList ≠ "err".toList := by decide
  have e2 : "var".toList ≠ "err".toList := by decide
  have e3 : "ivar".toList ≠ "err".toList := by decide
  have e4 : "var".toList ≠ "ierr".toList := by decide
  have e5 : "ivar".toList ≠ "ierr".toList := by decide
  have e6 : "ivar".toList ≠ "var".toList := by decide
  simp only [loadWcs, getHdu, h1, h2]
  have : ∃ arg, errArg errtype (.mat w rows) = .ok arg ∧ ∀ n, errors n arg = .error .value := by
    rcases hk with ⟨rfl, rfl⟩ | ⟨rfl, rfl⟩ | ⟨rfl, rfl⟩ | ⟨rfl, rfl⟩
    · exact ⟨.err (.mat w rows), by simp only [errArg, if_true], fun _ => rfl⟩
    · exact ⟨_, by simp only [errArg, if_neg e1, if_true, recip, Except.map]; rfl, fun _ => rfl⟩
    · exact ⟨_, by simp only [errArg, if_neg e2, if_neg e4, if_true, recip, Except.map]; rfl, fun _ => rfl⟩
    · exact ⟨.ivar (.mat w rows), by simp only [errArg, if_neg e3, if_neg e5, if_neg e6, if_true], fun _ => rfl⟩
  obtain ⟨arg, a1, a2⟩ := this
  unfold build
  rw [(dispersion_iff hdr c d).2 ha]
  rcases hf with h | ⟨w', h⟩ <;> simp only [h, getHdu, h3, Except.map, hv, a1, fluxOf, a2]

/-- A list sorted by wavelength with distinct wavelengths is determined by its pixels. -/
theorem sorted_unique {l₁ l₂ : List Pix} (hp : l₁.Perm l₂) (h1 : l₁.Pairwise (fun a b => a.1 ≤ b.1)) (h2 : l₂.Pairwise (fun a b => a.1 < b.1)) : l₁ = l₂ := by
  have hn : (l₁.map Prod.fst).Nodup := (hp.map Prod.fst).nodup_iff.2 (by
    rw [List.Nodup, List.pairwise_map]
    exact h2.imp (fun h => ne_of_lt h))
  rw [List.Nodup, List.pairwise_map] at hn
  have h1' : l₁.Pairwise (fun a b => a.1 < b.1) := (h1.and hn).imp (fun h => lt_of_le_of_ne h.1 h.2)
  exact hp.eq_of_pairwise (fun a b _ _ x y => absurd (x.trans y) (lt_irrefl _)) h1' h2

/-- C176.  So for a positive dispersion pixel `i` of the spectrum is pixel `i` of the file, for a negative one they are in reverse order. -/
theorem wcs_order (c d : ℝ) (flux es : List ℝ) (s : List Pix) (hs : s.Pairwise (fun a b => a.1 ≤ b.1))
    (hp : s.Perm ((List.range flux.length).map fun (j : ℕ) => (c + (j : ℝ) * d, flux.getD j 0, es.getD j 0))) :
    (0 < d → s = (List.range flux.length).map fun (j : ℕ) => (c + (j : ℝ) * d, flux.getD j 0, es.getD j 0)) ∧
    (d < 0 → s = ((List.range flux.length).map fun (j : ℕ) => (c + (j : ℝ) * d, flux.getD j 0, es.getD j 0)).reverse) := by
  have hr : (List.range flux.length).Pairwise (· < ·) := List.pairwise_lt_range
  constructor
  · intro hd
    apply sorted_unique hp hs
    rw [List.pairwise_map]
    refine hr.imp ?_
    intro a b hab
    have : (a : ℝ) < b := by exact_mod_cast hab
    simp only
    nlinarith
  · intro hd
    apply sorted_unique (hp.trans (List.reverse_perm _).symm) hs
    rw [List.pairwise_reverse, List.pairwise_map]
    refine hr.imp ?_
    intro a b hab
    have : (a : ℝ) < b := by exact_mod_cast hab
    simp only
    nlinarith

/-- The wavelength of pixel `j` (counted from 0) by the FITS standard: the pixel CRPIX1, counted from 1, has the wavelength CRVAL1. -/
def standard (crpix c d : ℝ) (j : ℕ) : ℝ := c + ((j : ℝ) + 1 - crpix) * d

/-- C176 (defect).  CRPIX1 is not read: the wavelengths are those of the FITS standard exactly if CRPIX1 is 1 (or the dispersion 0). -/
theorem standard_iff (crpix c d : ℝ) (j : ℕ) : c + (j : ℝ) * d = standard crpix c d j ↔ crpix = 1 ∨ d = 0 := by
  unfold standard
  constructor
  · intro h
    have : (1 - crpix) * d = 0 := by linarith
    rcases mul_eq_zero.1 this with h | h
    · left; linarith
    · exact .inr h
  · rintro (rfl | rfl) <;> ring

/-! ## DEIMOS -/

/-- The first row of the table of an extension: LAMBDA, SPEC, IVAR, SKYSPEC. -/
structure Tab where
  lam : List ℝ
  spec : List ℝ
  ivar : List ℝ
  sky : List ℝ

/-- The extensions after the primary HDU: EXTNAME and table. -/
abbrev Fits := List (Option Text × Tab)

/-- A loaded spectrum: pixels and the sky. -/
structure Deimos where
  pix : List Pix
  sky : List ℝ

/-- `p in s` for texts. -/
def has (p s : Text) : Bool := s.tails.any (fun t => p.isPrefixOf t)

/-- The last extension of a name, io.py 1466 (a dictionary). -/
def lastExt (f : Fits) (n : Text) : Option Tab := (f.reverse.find? (fun e => e.1 = some n)).map (·.2)

/-- `f[name]` of pyfits: KeyError unless there is exactly one. -/
def theExt (f : Fits) (n : Text) : Except Err Tab := match f.filter (fun e => decide (e.1 = some n)) with
  | [e] => .ok e.2
  | _ => .error .key

/-- `Spectrum(x,flux,ivar=ivar)`, spec.py 315-348, and `fobj.sky = sky`. -/
def spectrum (t : Tab) : Except Err Deimos :=
  if t.spec.length = t.lam.length ∧ t.ivar.length = t.spec.length then
    .ok ⟨sortPix (List.zip t.lam (List.zip t.spec (t.ivar.map fun v => (√v)⁻¹))), t.sky⟩
  else .error .value

/-- Two arms one after the other, io.py 1470-1473. -/
def join (b r : Tab) : Tab := ⟨b.lam ++ r.lam, b.spec ++ r.spec, b.ivar ++ r.ivar, b.sky ++ r.sky⟩

/-- The name of the extraction, io.py 1457-1462; `cs`: pyfits is case sensitive. -/
def extName (cs : Bool) (extraction : Text) : Except Err Text :=
  if extraction = "horne".toList then .ok (if cs then "Horne".toList else "HORNE".toList)
  else if extraction = "boxcar".toList then .ok (if cs then "Bxspf".toList else "BXSPF".toList)
  else .error .value

/-- The choice of the arms, io.py 1465-1490; the second component says whether `bd` and `rd` exist. -/
def arms (f : Fits) (n : Text) : Except Err (Tab × Bool) :=
  if f.any (fun e => e.1.isNone) then .error .key
  else match lastExt f (n ++ "-B".toList), lastExt f (n ++ "-R".toList) with
    | some b, some r => .ok (join b r, true)
    | some _, none => (theExt f (n ++ "-B".toList)).map fun t => (t, false)
    | none, some _ => (theExt f (n ++ "-R".toList)).map fun t => (t, false)
    | none, none => .error .key

/-- `fobj.smooth`, io.py 1494-1498, spec.py 627-668: the filter is a parameter that keeps the length. -/
def smoothed (filt : Option (List ℝ → List ℝ)) (s : Deimos) : Deimos := match filt with
  | none => s
  | some g => ⟨List.zip (s.pix.map (·.1)) (List.zip (g (s.pix.map (·.2.1))) (g (s.pix.map (·.2.2)))), s.sky⟩

/-- `load_deimos_spectrum` without plot, io.py 1431-1509; the file is read after the checks. -/
def loadDeimos (cs : Bool) (fn : Text) (f : Except Err Fits) (extraction : Text) (retdata : Bool) (filt : Option (List ℝ → List ℝ)) : Except Err Deimos :=
  if !has "spec1d".toList fn || !has "fits".toList fn then .error .value
  else match extName cs extraction with
    | .error e => .error e
    | .ok n => match f with
      | .error e => .error e
      | .ok f => match arms f n with
        | .error e => .error e
        | .ok (t, both) => match spectrum t with
          | .error e => .error e
          | .ok s => if retdata && !both then .error .unboundLocal else .ok (smoothed filt s)

/-- The loop of `load_all_deimos_spectra`, io.py 1529-1540: the spectra and the numbers of the files that failed. -/
def loop {S : Type} (load : Text → Except Err S) : ℕ → List Text → List S × List ℕ
  | _, [] => ([], [])
  | i, fn :: fns => match load fn with
    | .ok s => (s :: (loop load (i + 1) fns).1, (loop load (i + 1) fns).2)
    | .error _ => ((loop load (i + 1) fns).1, i :: (loop load (i + 1) fns).2)

/-- `load_all_deimos_spectra`, io.py 1525-1546: the dictionary as a list of pairs. -/
def loadAll {S : Type} (load : Text → Except Err S) (fns : List Text) : List (Text × S) :=
  ((loop load 0 fns).2.reverse.foldl (fun l i => l.eraseIdx i) fns).zip (loop load 0 fns).1

/-! ## C177 -/

/-- Position `j` of a table. -/
def Tab.at (t : Tab) (j : ℕ) : Pix := (t.lam.getD j 0, t.spec.getD j 0, (√(t.ivar.getD j 0))⁻¹)

theorem lastExt_eq {f : Fits} (hd : (f.map (·.1)).Nodup) {n : Text} {t : Tab} (h : (some n, t) ∈ f) : lastExt f n = some t := by
  unfold lastExt
  cases hf : f.reverse.find? (fun e => e.1 = some n) with
  | none =>
    have := List.find?_eq_none.1 hf (some n, t) (by simpa using h)
    simp at this
  | some e =>
    have h1 := List.find?_some hf
    have h2 := List.mem_of_find?_eq_some hf
    simp only [decide_eq_true_eq] at h1
    have : e = (some n, t) := List.inj_on_of_nodup_map hd (by simpa using h2) h (by simpa using h1)
    rw [this]; rfl

theorem lastExt_none {f : Fits} {n : Text} (h : ∀ t, (some n, t) ∉ f) : lastExt f n = none := by
  unfold lastExt
  rw [Option.map_eq_none_iff, List.find?_eq_none]
  intro e he h1
  simp only [decide_eq_true_eq] at h1
  exact h e.2 (by rw [← h1]; simpa using he)

theorem theExt_eq {f : Fits} (hd : (f.map (·.1)).Nodup) {n : Text} {t : Tab} (h : (some n, t) ∈ f) : theExt f n = .ok t := by
  unfold theExt
  have hs : (f.filter (fun e => decide (e.1 = some n))) = [(some n, t)] := by
    have hnd : (f.filter (fun e => decide (e.1 = some n))).Nodup := (List.Nodup.of_map _ hd).filter _
    have hall : ∀ e ∈ f.filter (fun e => decide (e.1 = some n)), e = (some n, t) := by
      intro e he
      rw [List.mem_filter] at he
      exact List.inj_on_of_nodup_map hd he.1 h (by simpa using he.2)
    have hm : (some n, t) ∈ f.filter (fun e => decide (e.1 = some n)) := by rw [List.mem_filter]; exact ⟨h, by simp⟩
    generalize f.filter (fun e => decide (e.1 = some n)) = l at hnd hall hm
    match l, hnd, hall, hm with
    | [], _, _, hm => simp at hm
    | [e], _, hall, _ => rw [hall e (by simp)]
    | e :: e' :: l, hnd, hall, _ =>
      have := hall e (by simp)
      have := hall e' (by simp)
      simp_all
  rw [hs]

theorem tab_pixels (t : Tab) (h : t.spec.length = t.lam.length ∧ t.ivar.length = t.lam.length) :
    List.zip t.lam (List.zip t.spec (t.ivar.map fun v => (√v)⁻¹)) = (List.range t.lam.length).map t.at := by
  apply List.ext_getElem
  · simp [h.1, h.2]
  · intro j h1 h2
    have hj : j < t.lam.length := by simpa using h2
    simp [Tab.at, List.getElem_zip, hj, h.1, h.2]

theorem no_unnamed {f : Fits} (h : ∀ e ∈ f, e.1 ≠ none) : f.any (fun e => e.1.isNone) = false := by
  rw [List.any_eq_false]
  intro e he
  simpa using h e he

/-- C177.  A file with both arms gives all pixels of both, ordered by wavelength, the error from the inverse variance of the same pixel. -/
theorem both_arms (cs : Bool) (fn : Text) (f : Fits) (extraction n : Text) (retdata : Bool) (hfn : has "spec1d".toList fn = true ∧ has "fits".toList fn = true)
    (hn : extName cs extraction = .ok n) (hnames : ∀ e ∈ f, e.1 ≠ none) (hd : (f.map (·.1)).Nodup) (b r : Tab)
    (hb : (some (n ++ "-B".toList), b) ∈ f) (hr : (some (n ++ "-R".toList), r) ∈ f)
    (lb : b.spec.length = b.lam.length ∧ b.ivar.length = b.lam.length) (lr : r.spec.length = r.lam.length ∧ r.ivar.length = r.lam.length) :
    ∃ s, loadDeimos cs fn (.ok f) extraction retdata none = .ok s ∧ s.pix.Pairwise (fun a b => a.1 ≤ b.1) ∧ s.sky = b.sky ++ r.sky ∧
      s.pix.Perm ((List.range b.lam.length).map b.at ++ (List.range r.lam.length).map r.at) := by
  have hz : List.zip (join b r).lam (List.zip (join b r).spec ((join b r).ivar.map fun v => (√v)⁻¹)) =
      (List.range b.lam.length).map b.at ++ (List.range r.lam.length).map r.at := by
    rw [← tab_pixels b lb, ← tab_pixels r lr]
    simp only [join, List.map_append]
    rw [List.zip_append (by simp [lb.1, lb.2]), List.zip_append (by simp [lb.1, lb.2])]
  refine ⟨⟨sortPix ((List.range b.lam.length).map b.at ++ (List.range r.lam.length).map r.at), b.sky ++ r.sky⟩, ?_, sortPix_sorted _, rfl, sortPix_perm _⟩
  have hsp : spectrum (join b r) = .ok ⟨sortPix ((List.range b.lam.length).map b.at ++ (List.range r.lam.length).map r.at), b.sky ++ r.sky⟩ := by
    rw [spectrum, if_pos (by simp [join, lb.1, lb.2, lr.1, lr.2]), hz]; rfl
  simp only [loadDeimos, hfn.1, hfn.2, hn, arms, no_unnamed hnames, lastExt_eq hd hb, lastExt_eq hd hr, hsp, smoothed, Bool.not_true, Bool.not_false, Bool.or_self, Bool.false_eq_true, if_false, if_true, Bool.and_false, Bool.and_true, Bool.false_and, ↓reduceIte]

/-- C177.  With one arm only its pixels are the spectrum; the raw data cannot be asked for (UnboundLocalError). -/
theorem one_arm (cs : Bool) (fn : Text) (f : Fits) (extraction n : Text) (hfn : has "spec1d".toList fn = true ∧ has "fits".toList fn = true)
    (hn : extName cs extraction = .ok n) (hnames : ∀ e ∈ f, e.1 ≠ none) (hd : (f.map (·.1)).Nodup) (x y : Text) (hxy : x = "-B".toList ∧ y = "-R".toList ∨ x = "-R".toList ∧ y = "-B".toList)
    (t : Tab) (ht : (some (n ++ x), t) ∈ f) (ho : ∀ t', (some (n ++ y), t') ∉ f) (hl : t.spec.length = t.lam.length ∧ t.ivar.length = t.lam.length) :
    (∃ s, loadDeimos cs fn (.ok f) extraction false none = .ok s ∧ s.pix.Pairwise (fun a b => a.1 ≤ b.1) ∧ s.sky = t.sky ∧ s.pix.Perm ((List.range t.lam.length).map t.at)) ∧
    loadDeimos cs fn (.ok f) extraction true none = .error .unboundLocal := by
  have hsp : spectrum t = .ok ⟨sortPix ((List.range t.lam.length).map t.at), t.sky⟩ := by
    rw [spectrum, if_pos (by simp [hl.1, hl.2]), tab_pixels t hl]
  rcases hxy with ⟨rfl, rfl⟩ | ⟨rfl, rfl⟩
  · refine ⟨⟨⟨sortPix ((List.range t.lam.length).map t.at), t.sky⟩, ?_, sortPix_sorted _, rfl, sortPix_perm _⟩, ?_⟩
    · simp only [loadDeimos, hfn.1, hfn.2, hn, arms, no_unnamed hnames, lastExt_eq hd ht, lastExt_none ho, theExt_eq hd ht, Except.map, hsp, smoothed, Bool.not_true, Bool.not_false, Bool.or_self, Bool.false_eq_true, if_false, if_true, Bool.and_false, Bool.and_true, Bool.false_and, ↓reduceIte]
    · simp only [loadDeimos, hfn.1, hfn.2, hn, arms, no_unnamed hnames, lastExt_eq hd ht, lastExt_none ho, theExt_eq hd ht, Except.map, hsp, Bool.not_true, Bool.not_false, Bool.or_self, Bool.false_eq_true, if_false, if_true, Bool.and_false, Bool.and_true, Bool.false_and, ↓reduceIte]
  · refine ⟨⟨⟨sortPix ((List.range t.lam.length).map t.at), t.sky⟩, ?_, sortPix_sorted _, rfl, sortPix_perm _⟩, ?_⟩
    · simp only [loadDeimos, hfn.1, hfn.2, hn, arms, no_unnamed hnames, lastExt_eq hd ht, lastExt_none ho, theExt_eq hd ht, Except.map, hsp, smoothed, Bool.not_true, Bool.not_false, Bool.or_self, Bool.false_eq_true, if_false, if_true, Bool.and_false, Bool.and_true, Bool.false_and, ↓reduceIte]
    · simp only [loadDeimos, hfn.1, hfn.2, hn, arms, no_unnamed hnames, lastExt_eq hd ht, lastExt_none ho, theExt_eq hd ht, Except.map, hsp, Bool.not_true, Bool.not_false, Bool.or_self, Bool.false_eq_true, if_false, if_true, Bool.and_false, Bool.and_true, Bool.false_and, ↓reduceIte]

/-- C177.  What is refused: names without spec1d or fits, other extractions (ValueError), files without either arm or with a nameless extension (KeyError). -/
theorem deimos_refused (cs : Bool) (fn : Text) (f : Fits) (extraction n : Text) (retdata : Bool) (filt : Option (List ℝ → List ℝ)) :
    (has "spec1d".toList fn = false ∨ has "fits".toList fn = false → loadDeimos cs fn (.ok f) extraction retdata filt = .error .value) ∧
    (extraction ≠ "horne".toList → extraction ≠ "boxcar".toList → loadDeimos cs fn (.ok f) extraction retdata filt = .error .value) ∧
    (has "spec1d".toList fn = true → has "fits".toList fn = true → extName cs extraction = .ok n →
      ((∃ e ∈ f, e.1 = none) ∨ (∀ t, (some (n ++ "-B".toList), t) ∉ f) ∧ (∀ t, (some (n ++ "-R".toList), t) ∉ f)) →
      loadDeimos cs fn (.ok f) extraction retdata filt = .error .key) := by
  refine ⟨?_, ?_, ?_⟩
  · rintro (h | h) <;> simp only [loadDeimos, h, Bool.not_false, Bool.true_or, Bool.or_true, if_true]
  · intro h1 h2
    unfold loadDeimos
    split_ifs
    · rfl
    · simp only [extName, if_neg h1, if_neg h2]
  · intro h1 h2 h3 h
    have ha : arms f n = .error .key := by
      rcases h with ⟨e, he, hn⟩ | ⟨hB, hR⟩
      · unfold arms
        rw [if_pos (List.any_eq_true.2 ⟨e, he, by simp [hn]⟩)]
      · unfold arms
        split_ifs
        · rfl
        · rw [lastExt_none hB, lastExt_none hR]
    simp only [loadDeimos, h1, h2, h3, ha, Bool.not_true, Bool.not_false, Bool.or_self, Bool.false_eq_true, if_false, if_true, Bool.and_false, Bool.and_true, Bool.false_and, ↓reduceIte]

/-- C177.  The two extractions look for different extensions. -/
theorem extraction_names : extName true "horne".toList = .ok "Horne".toList ∧ extName false "horne".toList = .ok "HORNE".toList ∧
    extName true "boxcar".toList = .ok "Bxspf".toList ∧ extName false "boxcar".toList = .ok "BXSPF".toList := by decide

/-- C177.  If the wavelengths of the file increase, its order is kept, so that the sky belongs to the pixels. -/
theorem sky_aligned (t : Tab) (h : t.spec.length = t.lam.length ∧ t.ivar.length = t.lam.length) (hs : t.lam.Pairwise (· < ·)) :
    spectrum t = .ok ⟨(List.range t.lam.length).map t.at, t.sky⟩ := by
  rw [spectrum, if_pos (by simp [h.1, h.2]), tab_pixels t h]
  congr 2
  apply sorted_unique (sortPix_perm _) (sortPix_sorted _)
  rw [List.pairwise_map]
  rw [List.pairwise_iff_getElem] at hs ⊢
  intro i j hi hj hij
  simp only [List.length_range] at hi hj
  simpa [Tab.at, hi, hj] using hs i j hi hj hij

/-- C177.  Columns of different lengths give ValueError. -/
theorem columns_differ (t : Tab) (h : ¬ (t.spec.length = t.lam.length ∧ t.ivar.length = t.lam.length)) : spectrum t = .error .value := by
  rw [spectrum, if_neg]
  rintro ⟨a, b⟩
  exact h ⟨a, b.trans a⟩

/-- C177 (defect).  If the arms overlap the pixels are sorted but the sky is not: here the sky 30 of wavelength 3 is at the place of wavelength 2. -/
theorem sky_misplaced : ∃ s, spectrum (join ⟨[1, 3], [5, 6], [1, 1], [10, 30]⟩ ⟨[2, 4], [7, 8], [1, 1], [20, 40]⟩) = .ok s ∧
    s.pix = [(1, 5, 1), (2, 7, 1), (3, 6, 1), (4, 8, 1)] ∧ s.sky = [10, 30, 20, 40] := by
  refine ⟨_, by rw [spectrum, if_pos (by simp [join])], ?_, rfl⟩
  apply sorted_unique ?_ (sortPix_sorted _)
  · simp
    norm_num
  · refine (sortPix_perm _).trans ?_
    simp only [join, List.cons_append, List.nil_append, List.map_cons, List.map_nil, List.zip_cons_cons, List.zip_nil_right, Real.sqrt_one, inv_one]
    exact List.Perm.cons _ (List.Perm.swap _ _ _)

/-- C177.  Smoothing replaces fluxes and errors by the filtered ones and keeps the wavelengths. -/
theorem smooth_exact (g : List ℝ → List ℝ) (hg : ∀ l, (g l).length = l.length) (s : Deimos) :
    ((smoothed (some g) s).pix.map (·.1)) = s.pix.map (·.1) ∧ (smoothed (some g) s).pix.map (·.2.1) = g (s.pix.map (·.2.1)) ∧
    (smoothed (some g) s).pix.map (·.2.2) = g (s.pix.map (·.2.2)) ∧ (smoothed (some g) s).sky = s.sky := by
  refine ⟨?_, ?_, ?_, rfl⟩
  · simp only [smoothed]
    exact List.map_fst_zip (by simp [hg])
  · simp only [smoothed]
    rw [show (fun p : Pix => p.2.1) = (fun p : ℝ × ℝ => p.1) ∘ Prod.snd from rfl, ← List.map_map, List.map_snd_zip (by simp [hg])]
    exact List.map_fst_zip (by simp [hg])
  · simp only [smoothed]
    rw [show (fun p : Pix => p.2.2) = (fun p : ℝ × ℝ => p.2) ∘ Prod.snd from rfl, ← List.map_map, List.map_snd_zip (by simp [hg])]
    exact List.map_snd_zip (by simp [hg])

theorem erase_loop {S : Type} (load : Text → Except Err S) (pre fns : List Text) :
    (loop load pre.length fns).2.reverse.foldl (fun l i => l.eraseIdx i) (pre ++ fns) = pre ++ fns.filter (fun fn => (load fn).toOption.isSome) := by
  induction fns generalizing pre with
  | nil => simp [loop]
  | cons fn fns ih =>
    have := ih (pre ++ [fn])
    simp only [List.length_append, List.length_cons, List.length_nil, zero_add, List.append_assoc, List.cons_append, List.nil_append] at this
    cases hl : load fn with
    | ok s =>
      simp only [loop, hl]
      rw [this]
      simp [hl, Except.toOption]
    | error e =>
      simp only [loop, hl, List.reverse_cons, List.foldl_append, List.foldl_cons, List.foldl_nil]
      rw [this, List.eraseIdx_append_of_length_le (le_refl _)]
      simp [hl, Except.toOption]

theorem loop_specs {S : Type} (load : Text → Except Err S) (i : ℕ) (fns : List Text) : (loop load i fns).1 = fns.filterMap (fun fn => (load fn).toOption) := by
  induction fns generalizing i with
  | nil => rfl
  | cons fn fns ih => cases hl : load fn <;> simp [loop, hl, ih, Except.toOption]

/-- C177.  `load_all_deimos_spectra`: exactly the files that can be loaded, in order, each with its own spectrum; the others are left out. -/
theorem all_exact {S : Type} (load : Text → Except Err S) (fns : List Text) :
    loadAll load fns = fns.filterMap (fun fn => (load fn).toOption.map fun s => (fn, s)) := by
  have h := erase_loop load [] fns
  simp only [List.length_nil, List.nil_append] at h
  rw [loadAll, h, loop_specs]
  clear h
  induction fns with
  | nil => rfl
  | cons fn fns ih =>
    cases hl : load fn with
    | ok s =>
      have : (load fn).toOption = some s := by rw [hl]; rfl
      simp [this, ih]
    | error e =>
      have : (load fn).toOption = none := by rw [hl]; rfl
      simp [this, ih]

/-- C177.  So a name is in the dictionary with a spectrum exactly if it is that of a file that loads as this spectrum. -/
theorem all_mem {S : Type} (load : Text → Except Err S) (fns : List Text) (fn : Text) (s : S) : (fn, s) ∈ loadAll load fns ↔ fn ∈ fns ∧ load fn = .ok s := by
  rw [all_exact]
  simp only [List.mem_filterMap, Option.map_eq_some_iff, Prod.mk.injEq]
  constructor
  · rintro ⟨g, hg, s', h1, rfl, rfl⟩
    refine ⟨hg, ?_⟩
    cases hl : load g <;> simp_all [Except.toOption]
  · rintro ⟨h1, h2⟩
    exact ⟨fn, h1, s, by simp [h2, Except.toOption], rfl, rfl⟩

/-- A file of two HDUs: an empty primary and a spectrum of three pixels with negative dispersion. -/
def sampleFile : List Hdu := [⟨none, none, none, none, none, .none⟩, ⟨some 5000, none, some (-2), none, some 1, .mat 3 [[1, 2, 3]]⟩]

example : ∃ s, loadWcs sampleFile none none none "err".toList = .ok s ∧ s.Perm [(5000, 1, 0), (4998, 2, 0), (4996, 3, 0)] := by
  rw [(chosen sampleFile none none "err".toList).2 1 _ rfl ⟨by simp, .inr (by simp)⟩ (by
    intro j g hj hg
    obtain rfl : j = 0 := by omega
    simp only [sampleFile, List.getElem?_cons_zero, Option.some.injEq] at hg
    subst hg; simp)]
  obtain ⟨h1, -, -⟩ := wcs_no_errors sampleFile 1 none "err".toList _ _ 5000 (-2) [1, 2, 3] rfl rfl ⟨.inl rfl, rfl, .inr ⟨rfl, rfl⟩⟩ (.inr ⟨3, rfl⟩)
  obtain ⟨s, h2, h3, h4⟩ := h1 (.inl rfl)
  refine ⟨s, h2, ?_⟩
  convert h4 using 1
  simp [List.range_succ]
  norm_num

end

end Verif.SpecFiles

import Mathlib.Data.List.Basic
import Mathlib.Algebra.Order.Field.Rat
import Mathlib.Algebra.Field.Basic
import Mathlib.Tactic.Linarith
import Mathlib.Tactic.FieldSimp
import Mathlib.Tactic.Ring
import Mathlib.Tactic.NormNum

/-!
# Browsing spectra in Spylot (astropysics/gui/spylot.py 409-428, 640-655, 677-737, 775-855, 1124-1164) (C197)

The list of spectra, the index of the current one, the spectrum whose data are in the plot, and the redshift slider with its limits.  Rationals instead of floats.  Trusted about the Traits library: a static
handler `_name_changed(self, a, b)` gets the old and the new value in this order after the value was set, it is called only if the value changes, and an exception in it is logged and not raised.  The
spectra in the list are different objects.
-/

namespace Verif.Spylot

/-- A spectrum: who it is, its redshift, and whether its continuum is an array (`fitContinuum(evaluate=True)`) and not a function. -/
structure Spec where
  id : ℕ
  z : ℚ
  arrayCont : Bool

structure State where
  specs : List Spec
  /-- `currspeci` -/
  i : ℤ
  /-- the spectrum in the plot -/
  shown : Option ℕ
  z : ℚ
  lowerz : ℚ
  upperz : ℚ

/-- Python's `l[i]`. -/
def index (n : ℕ) (i : ℤ) : Option ℕ :=
  if 0 ≤ i ∧ i < n then some i.toNat else if -(n : ℤ) ≤ i ∧ i < 0 then some (i + n).toNat else none

/-- `currspec`, spylot.py 677-678. -/
def State.curr (s : State) : Option Spec := (index s.specs.length s.i).bind fun k => s.specs[k]?

/-- `_spechanged_fired`, spylot.py 775-842: the data and the title are set, then the continuum is evaluated (a TypeError if it is an array), then the redshift and its limits. -/
def fire (s : State) : State :=
  match s.curr with
  | none => s
  | some sp =>
    let s := { s with shown := some sp.id }
    if sp.arrayCont then s
    else if s.z = sp.z then s
    else
      let rng := s.upperz - s.lowerz
      if 0 ≤ sp.z - rng / 2 then { s with z := sp.z, upperz := sp.z + rng / 2, lowerz := sp.z - rng / 2 }
      else { s with z := sp.z, lowerz := 0, upperz := rng }

/-- Setting `currspeci`, with `_currspeci_changed`, spylot.py 692-701: its parameters are named `new, old` but get the old and the new value, so it is the old index that is checked. -/
def setIndex (s : State) (j : ℤ) : State :=
  if j = s.i then s
  else if s.specs.length = 0 then { s with i := 0 }
  else if ¬(0 ≤ s.i ∧ s.i < s.specs.length) then { s with i := j }
  else fire { s with i := j }

/-- What the user does. -/
inductive Op
  | left
  | right
  /-- the index is set (`currspecip1` counts from one) -/
  | goto (j : ℤ)
  | delete
  | load (l : List Spec)
  /-- a spectrum is added from a file -/
  | add (sp : Spec)
  | setZ (v : ℚ)
  | coarser
  | finer

/-- `del specs[i]`. -/
def del (s : State) : Option (List Spec) := (index s.specs.length s.i).map fun k => s.specs.eraseIdx k

/-- New limits around the redshift, spylot.py 710-731. -/
def limits (s : State) (newrng : ℚ) : State :=
  if 0 < s.z - newrng / 2 then { s with lowerz := s.z - newrng / 2, upperz := s.z + newrng / 2 } else { s with lowerz := 0, upperz := newrng }

/-- `_specleft_fired`, `_specright_fired` (848-855), `_delcurrspec_fired` (1124-1131), `_loadspeclist_fired` (1140-1153), `_loadaddspec_fired` (1154-1164: `spec` is a local variable, so it is always an
UnboundLocalError), `_z_changed` (732-738), `_coarserz_changed`, `_finerz_changed` (710-731). -/
def step (s : State) : Op → State
  | .left => if 0 < s.i then setIndex s (s.i - 1) else s
  | .right => if s.i < (s.specs.length : ℤ) - 1 then setIndex s (s.i + 1) else s
  | .goto j => setIndex s j
  | .delete => match del s with
    | none => s
    | some l =>
      let s := fire { s with specs := l }
      if s.i = s.specs.length ∧ 0 < s.i then setIndex s (s.i - 1) else s
  | .load l => fire (fire { s with specs := l })
  | .add _ => s
  | .setZ v => if v = s.z then s
    else (match index s.specs.length s.i with
      | none => { s with z := v }
      | some k => { s with z := v, specs := s.specs.modify k fun sp => { sp with z := v } })
  | .coarser => limits s ((s.upperz - s.lowerz) * 2)
  | .finer => limits s ((s.upperz - s.lowerz) / 2)

/-- `Spylot(specs)`, spylot.py 640-655. -/
def start (l : List Spec) : State := fire (fire ⟨l, 0, none, 0, 0, 1⟩)

/-! ## Specification -/

/-- The plot shows the current spectrum and the slider its redshift. -/
def Good (s : State) : Prop := ∃ sp, 0 ≤ s.i ∧ s.specs[s.i.toNat]? = some sp ∧ s.i < s.specs.length ∧ s.shown = some sp.id ∧ s.z = sp.z

/-- No continuum is an array. -/
def Functions (s : State) : Prop := ∀ sp ∈ s.specs, sp.arrayCont = false

/-- What is safe in a state. -/
def Safe (s : State) : Op → Prop
  | .left | .right | .setZ _ | .coarser | .finer | .add _ => True
  | .goto j => 0 ≤ j ∧ j < s.specs.length
  | .delete => s.i + 1 < s.specs.length
  | .load l => s.i < l.length ∧ ∀ sp ∈ l, sp.arrayCont = false

/-- A history all of whose steps are safe. -/
def SafeRun : State → List Op → Prop
  | _, [] => True
  | s, o :: r => Safe s o ∧ SafeRun (step s o) r

def run (s : State) (l : List Op) : State := l.foldl step s

/-- How many times the slider was made coarser, minus how many times finer. -/
def zoom : List Op → ℤ
  | [] => 0
  | .coarser :: r => 1 + zoom r
  | .finer :: r => -1 + zoom r
  | _ :: r => zoom r

/-! ## Proofs -/

theorem index_pos (n : ℕ) (i : ℤ) (h : 0 ≤ i) (h2 : i < n) : index n i = some i.toNat := by simp [index, h, h2]

theorem fire_fields (s : State) : (fire s).specs = s.specs ∧ (fire s).i = s.i ∧ (fire s).upperz - (fire s).lowerz = s.upperz - s.lowerz := by
  unfold fire
  cases s.curr with
  | none => simp
  | some sp =>
    simp only
    split
    · simp
    · split
      · simp
      · split
        · simp
        · simp

theorem fire_good (s : State) (h0 : 0 ≤ s.i) (h1 : s.i < s.specs.length) (hf : Functions s) : Good (fire s) := by
  have hk : s.i.toNat < s.specs.length := by omega
  have hc : s.curr = some s.specs[s.i.toNat] := by simp [State.curr, index_pos _ _ h0 h1, hk]
  obtain ⟨hs, hi, _⟩ := fire_fields s
  have hfn := hf _ (List.getElem_mem hk)
  refine ⟨s.specs[s.i.toNat], by rw [hi]; exact h0, by rw [hs, hi]; simp [hk], by rw [hs, hi]; exact h1, ?_, ?_⟩
  · unfold fire
    rw [hc]
    simp only [hfn]
    split
    · simp_all
    · split
      · rfl
      · split <;> rfl
  · unfold fire
    rw [hc]
    simp only [hfn]
    split
    · simp_all
    · split
      · rename_i h; exact h
      · split <;> rfl

theorem good_index (s : State) (h : Good s) : 0 ≤ s.i ∧ s.i < s.specs.length := by obtain ⟨sp, h1, _, h2, _⟩ := h; exact ⟨h1, h2⟩

theorem setIndex_fields (s : State) (j : ℤ) : (setIndex s j).specs = s.specs ∧ (setIndex s j).upperz - (setIndex s j).lowerz = s.upperz - s.lowerz := by
  unfold setIndex
  split
  · simp
  · split
    · simp
    · split
      · simp
      · obtain ⟨h1, _, h3⟩ := fire_fields { s with i := j }; exact ⟨h1, h3⟩

theorem setIndex_good (s : State) (j : ℤ) (h : Good s) (hf : Functions s) (h0 : 0 ≤ j) (h1 : j < s.specs.length) : Good (setIndex s j) ∧ (setIndex s j).i = j := by
  obtain ⟨g0, g1⟩ := good_index s h
  unfold setIndex
  split
  · rename_i e; exact ⟨h, e.symm⟩
  · split
    · omega
    · split
      · rename_i hn; exact absurd ⟨g0, g1⟩ hn
      · exact ⟨fire_good _ h0 h1 hf, (fire_fields _).2.1⟩

theorem step_good (s : State) (o : Op) (h : Good s) (hf : Functions s) (hs : Safe s o) : Good (step s o) ∧ Functions (step s o) := by
  obtain ⟨g0, g1⟩ := good_index s h
  have hset : ∀ j : ℤ, 0 ≤ j → j < s.specs.length → Good (setIndex s j) ∧ Functions (setIndex s j) := by
    intro j h0 h1
    refine ⟨(setIndex_good s j h hf h0 h1).1, ?_⟩
    unfold Functions
    rw [(setIndex_fields s j).1]
    exact hf
  cases o with
  | left =>
    simp only [step]
    split
    · exact hset _ (by omega) (by omega)
    · exact ⟨h, hf⟩
  | right =>
    simp only [step]
    split
    · exact hset _ (by omega) (by omega)
    · exact ⟨h, hf⟩
  | goto j => exact hset j hs.1 hs.2
  | delete =>
    have hs' : s.i + 1 < s.specs.length := hs
    have hk : s.i.toNat < s.specs.length := by omega
    have hl : (s.specs.eraseIdx s.i.toNat).length = s.specs.length - 1 := List.length_eraseIdx_of_lt hk
    simp only [step, del, index_pos _ _ g0 g1, Option.map_some]
    have hf' : Functions { s with specs := s.specs.eraseIdx s.i.toNat } := fun sp hsp => hf sp (List.mem_of_mem_eraseIdx hsp)
    obtain ⟨e1, e2, _⟩ := fire_fields { s with specs := s.specs.eraseIdx s.i.toNat }
    rw [if_neg (by rw [e1, e2]; simp only [hl]; omega)]
    refine ⟨fire_good _ g0 (by simp only [hl]; omega) hf', ?_⟩
    unfold Functions; rw [e1]; exact hf'
  | load l =>
    have hf' : Functions { s with specs := l } := hs.2
    obtain ⟨e1, e2, _⟩ := fire_fields { s with specs := l }
    have hf2 : Functions (fire { s with specs := l }) := by unfold Functions; rw [e1]; exact hf'
    refine ⟨fire_good _ (by rw [e2]; exact g0) (by rw [e1, e2]; exact hs.1) hf2, ?_⟩
    show Functions (fire (fire { s with specs := l }))
    unfold Functions
    rw [(fire_fields _).1]
    exact hf2
  | add sp => exact ⟨h, hf⟩
  | setZ v =>
    simp only [step]
    split
    · exact ⟨h, hf⟩
    · rw [index_pos _ _ g0 g1]
      obtain ⟨sp, _, h2, _, h4, h5⟩ := h
      refine ⟨⟨{ sp with z := v }, g0, ?_, ?_, h4, rfl⟩, ?_⟩
      · simp [List.getElem?_modify, h2]
      · simpa using g1
      · intro x hx
        simp only at hx
        obtain ⟨k, hk, e⟩ := List.getElem_of_mem hx
        rw [List.getElem_modify] at e
        have hk' : k < s.specs.length := by simpa using hk
        have := hf _ (List.getElem_mem hk')
        split at e
        · rw [← e]; exact this
        · rw [← e]; exact this
  | coarser =>
    simp only [step, limits]
    split
    · exact ⟨h, hf⟩
    · exact ⟨h, hf⟩
  | finer =>
    simp only [step, limits]
    split
    · exact ⟨h, hf⟩
    · exact ⟨h, hf⟩

/-- C197.  After any history of moving, choosing an existing number, editing the redshift, zooming, loading lists that are long enough and deleting spectra other than the last, the plot shows the current
spectrum and the slider is at its redshift. -/
theorem always_current (l : List Spec) (hl : l ≠ []) (hf : ∀ sp ∈ l, sp.arrayCont = false) (ops : List Op) (h : SafeRun (start l) ops) : Good (run (start l) ops) := by
  have h0 : Good (start l) ∧ Functions (start l) := by
    have hlen : 0 < l.length := List.length_pos_iff.2 hl
    set s0 : State := ⟨l, 0, none, 0, 0, 1⟩ with hs0
    obtain ⟨e1, e2, _⟩ := fire_fields s0
    have hf2 : Functions (fire s0) := by unfold Functions; rw [e1]; exact hf
    refine ⟨fire_good _ (by rw [e2]) (by rw [e1, e2]; simpa [hs0] using hlen) hf2, ?_⟩
    show Functions (fire (fire s0))
    unfold Functions; rw [(fire_fields _).1]; exact hf2
  have key : ∀ (ops : List Op) (s : State), Good s → Functions s → SafeRun s ops → Good (run s ops) := by
    intro ops
    induction ops with
    | nil => intro s h _ _; exact h
    | cons o r ih =>
      intro s hg hfn hr
      obtain ⟨g, f⟩ := step_good s o hg hfn hr.1
      exact ih (step s o) g f hr.2
  exact key ops _ h0.1 h0.2 h

/-- C197.  The width of the slider only depends on the zooms: it doubles and halves, whatever else happens. -/
theorem zoom_exact (l : List Spec) (ops : List Op) : (run (start l) ops).upperz - (run (start l) ops).lowerz = (2 : ℚ) ^ zoom ops := by
  have hlim : ∀ (s : State) (r : ℚ), (limits s r).upperz - (limits s r).lowerz = r := by
    intro s r; unfold limits; split
    · simp only; ring
    · simp
  have hfire : ∀ s, (fire s).upperz - (fire s).lowerz = s.upperz - s.lowerz := fun s => (fire_fields s).2.2
  have hstep : ∀ (s : State) (o : Op), (step s o).upperz - (step s o).lowerz = (s.upperz - s.lowerz) * (2 : ℚ) ^ zoom [o] := by
    intro s o
    cases o with
    | left => simp only [step, zoom, zpow_zero, mul_one]; split; exacts [(setIndex_fields _ _).2, rfl]
    | right => simp only [step, zoom, zpow_zero, mul_one]; split; exacts [(setIndex_fields _ _).2, rfl]
    | goto j => simp only [step, zoom, zpow_zero, mul_one]; exact (setIndex_fields _ _).2
    | delete =>
      simp only [step, zoom, zpow_zero, mul_one]
      split
      · rfl
      · rename_i l' _
        have := hfire { s with specs := l' }
        split
        · rw [(setIndex_fields _ _).2]; exact this
        · exact this
    | load l => simp only [step, zoom, zpow_zero, mul_one, hfire]
    | add sp => simp [step, zoom]
    | setZ v =>
      simp only [step, zoom, zpow_zero, mul_one]
      split
      · rfl
      · split <;> rfl
    | coarser => simp [step, hlim, zoom]
    | finer => simp [step, hlim, zoom, div_eq_mul_inv]
  have hz : ∀ (o : Op) (r : List Op), zoom (o :: r) = zoom [o] + zoom r := by intro o r; cases o <;> simp [zoom]
  have key : ∀ (ops : List Op) (s : State), (run s ops).upperz - (run s ops).lowerz = (s.upperz - s.lowerz) * (2 : ℚ) ^ zoom ops := by
    intro ops
    induction ops with
    | nil => intro s; simp [run, zoom]
    | cons o r ih =>
      intro s
      show (run (step s o) r).upperz - (run (step s o) r).lowerz = _
      rw [ih, hstep, hz o r, zpow_add₀ (by norm_num : (2 : ℚ) ≠ 0)]
      ring
  rw [key]
  unfold start
  rw [hfire, hfire]
  simp

/-- C197.  After zooming, and after moving to a spectrum with another redshift, the slider's limits contain a redshift that is not negative; a negative one is outside them. -/
theorem limits_contain (s : State) (h : s.lowerz ≤ s.upperz) :
    (∀ o, o = .coarser ∨ o = .finer → (step s o).z = s.z ∧ 0 ≤ (step s o).lowerz ∧ ((step s o).lowerz ≤ s.z ∧ s.z ≤ (step s o).upperz ↔ 0 ≤ s.z)) ∧
    (∀ sp, s.curr = some sp → sp.arrayCont = false → s.z ≠ sp.z → 0 ≤ (fire s).lowerz ∧ ((fire s).lowerz ≤ sp.z ∧ sp.z ≤ (fire s).upperz ↔ 0 ≤ sp.z)) := by
  have hlim : ∀ r : ℚ, 0 ≤ r → (limits s r).z = s.z ∧ 0 ≤ (limits s r).lowerz ∧ ((limits s r).lowerz ≤ s.z ∧ s.z ≤ (limits s r).upperz ↔ 0 ≤ s.z) := by
    intro r hr
    unfold limits
    split
    · rename_i h1
      refine ⟨rfl, h1.le, ?_⟩
      simp only
      constructor
      · intro _; linarith
      · intro _; constructor <;> linarith
    · rename_i h1
      rw [not_lt] at h1
      refine ⟨rfl, le_refl _, ?_⟩
      simp only
      constructor
      · intro h; exact h.1
      · intro h2; exact ⟨h2, by linarith⟩
  constructor
  · rintro o (rfl | rfl)
    · exact hlim _ (by linarith)
    · exact hlim _ (by linarith)
  · intro sp hc ha hz
    unfold fire
    rw [hc]
    simp only [ha, Bool.false_eq_true, if_false, hz]
    split
    · rename_i h1
      refine ⟨h1, ?_⟩
      simp only
      constructor
      · intro _; linarith
      · intro _; constructor <;> linarith
    · rename_i h1
      rw [not_le] at h1
      refine ⟨le_refl _, ?_⟩
      simp only
      constructor
      · intro h; exact h.1
      · intro h2; exact ⟨h2, by linarith⟩

/-- C197.  If the last of several spectra is deleted, the one before becomes the current one but the plot and the slider stay with the deleted one; a redshift that is set now goes to the spectrum that is not
shown. -/
theorem delete_last (s : State) (sp : Spec) (h : Good s) (hsp : s.specs[s.i.toNat]? = some sp) (h1 : s.i + 1 = s.specs.length) (h2 : 0 < s.i) :
    (step s .delete).specs = s.specs.dropLast ∧ (step s .delete).i = s.i - 1 ∧ (step s .delete).shown = some sp.id ∧ (step s .delete).z = sp.z ∧
    ∀ v, v ≠ sp.z → (step (step s .delete) (.setZ v)).shown = some sp.id ∧ ∃ x, (step s .delete).specs[s.i.toNat - 1]? = some x ∧
      (step (step s .delete) (.setZ v)).specs[s.i.toNat - 1]? = some { x with z := v } := by
  obtain ⟨g0, g1⟩ := good_index s h
  obtain ⟨sp', _, e, _, hsh, hz⟩ := h
  rw [hsp, Option.some.injEq] at e
  subst e
  have hk : s.i.toNat < s.specs.length := by omega
  have hl : (s.specs.eraseIdx s.i.toNat).length = s.specs.length - 1 := List.length_eraseIdx_of_lt hk
  have hE : s.specs.eraseIdx s.i.toNat = s.specs.dropLast := by
    rw [List.eraseIdx_eq_take_drop_succ, List.dropLast_eq_take]
    have : s.i.toNat = s.specs.length - 1 := by omega
    rw [this]
    have : List.drop (s.specs.length - 1 + 1) s.specs = [] := by apply List.drop_eq_nil_of_le; omega
    rw [this, List.append_nil]
  have hcur : State.curr { s with specs := s.specs.eraseIdx s.i.toNat } = none := by
    have : index (s.specs.eraseIdx s.i.toNat).length s.i = none := by
      unfold index
      rw [hl, if_neg (by omega), if_neg (by omega)]
    simp [State.curr, this]
  have hfire : fire { s with specs := s.specs.eraseIdx s.i.toNat } = { s with specs := s.specs.eraseIdx s.i.toNat } := by
    unfold fire; rw [hcur]
  have hstep : step s .delete = { s with specs := s.specs.dropLast, i := s.i - 1 } := by
    simp only [step, del, index_pos _ _ g0 g1, Option.map_some, hfire]
    rw [if_pos (by simp only [hl]; omega)]
    unfold setIndex
    rw [if_neg (by simp only; omega), if_neg (by simp only [hl]; omega), if_pos (by simp only [hl]; omega)]
    rw [hE]
  rw [hstep]
  refine ⟨rfl, rfl, hsh, hz, ?_⟩
  intro v hv
  have hlen : s.specs.dropLast.length = s.specs.length - 1 := List.length_dropLast
  have hi : index s.specs.dropLast.length (s.i - 1) = some (s.i.toNat - 1) := by
    rw [index_pos _ _ (by omega) (by omega)]
    congr 1; omega
  have hne : v ≠ s.z := by rw [hz]; exact hv
  have hk2 : s.i.toNat - 1 < s.specs.dropLast.length := by omega
  simp only [step, hne, if_false, hi]
  refine ⟨hsh, s.specs.dropLast[s.i.toNat - 1], List.getElem?_eq_getElem hk2, ?_⟩
  rw [List.getElem?_modify]
  rw [List.getElem?_eq_getElem hk2]
  simp

/-- C197.  A number that does not exist is accepted, the plot stays, and choosing an existing number after it is not shown either. -/
theorem bad_index (s : State) (h : Good s) (j k : ℤ) (hj : (s.specs.length : ℤ) ≤ j) (hk : 0 ≤ k ∧ k < s.specs.length) :
    (step s (.goto j)).i = j ∧ (step s (.goto j)).shown = s.shown ∧ (step (step s (.goto j)) (.goto k)).i = k ∧ (step (step s (.goto j)) (.goto k)).shown = s.shown := by
  obtain ⟨g0, g1⟩ := good_index s h
  have hcur : State.curr { s with i := j } = none := by
    have : index s.specs.length j = none := by unfold index; rw [if_neg (by omega), if_neg (by omega)]
    simp [State.curr, this]
  have h1 : step s (.goto j) = { s with i := j } := by
    simp only [step, setIndex]
    rw [if_neg (by omega), if_neg (by omega), if_neg (not_not.2 ⟨g0, g1⟩)]
    unfold fire; rw [hcur]
  rw [h1]
  refine ⟨rfl, rfl, ?_⟩
  simp only [step, setIndex]
  rw [if_neg (by omega), if_neg (by omega), if_pos (by omega)]
  exact ⟨rfl, rfl⟩

/-- Adding a spectrum from a file never does anything. -/
theorem add_nothing (s : State) (sp : Spec) : step s (.add sp) = s := rfl

def a1 : Spec := ⟨1, 1 / 10, false⟩
def a2 : Spec := ⟨2, 3, false⟩
def a3 : Spec := ⟨3, 1 / 2, true⟩

/-- A case: two spectra, a move, a zoom and an edit; and a spectrum whose continuum is an array keeps the redshift of the one before in the slider. -/
theorem example_spylot :
    SafeRun (start [a1, a2]) [.right, .coarser, .setZ 2, .left] ∧ (run (start [a1, a2]) [.right, .coarser, .setZ 2, .left]).shown = some 1 ∧
    ((run (start [a1, a3]) [.right]).shown = some 3 ∧ (run (start [a1, a3]) [.right]).z = 1 / 10) := by
  refine ⟨⟨trivial, trivial, trivial, trivial, trivial⟩, by decide +kernel, by decide +kernel, by decide +kernel⟩

end Verif.Spylot

import Mathlib.Data.List.Basic
import Mathlib.Data.Rat.Defs

/-!
# Tables and plots of a night (astropysics/obstools.py, `Site.nightTable`, `Site.nightPlot`, 1362-1709) (C237)

`nightTable` begins with `from .astropysics import coords` (obstools.py:1384), and the package has no such module.  What the rest of the table would be is
a parameter: it is never used.
-/

namespace Verif.NightPlot

inductive Err
  | importE | unbound | value
  deriving DecidableEq

/-- The modules of the package: `astropysics/astropysics` is not among them. -/
def packageModules : List String :=
  ["__init__", "ccd", "config", "constants", "coords", "external", "gui", "models", "obstools", "objcat", "phot", "pipeline", "plotting", "publication", "spec",
   "sphinxext", "utils", "version"]

/-- `nightTable` (obstools.py:1362-1476): the import, and then the rest. -/
def nightTable {C T : Type} (rest : C → Except Err T) (c : C) : Except Err T := if "astropysics" ∈ packageModules then rest c else .error .importE

/-- The figure: was it cleared, the right margin, the curves in it. -/
structure Fig where
  cleared : Bool
  right : ℚ
  curves : ℕ
  deriving DecidableEq

/-- The argument `plotkwargs`: nothing, one dictionary for all, or a list of them (only its length matters). -/
inductive Kw
  | none
  | dict
  | list (n : ℕ)

def kwCount (n : ℕ) : Kw → ℕ
  | .none => n
  | .dict => n
  | .list k => k

/-- The loop over the objects: the curves drawn, and the last table. -/
def drawAll {C T : Type} (rest : C → Except Err T) : List C → Fig → Option T → Fig × Except Err (Option T)
  | [], fig, last => (fig, .ok last)
  | c :: cs, fig, _ => match nightTable rest c with
    | .error e => (fig, .error e)
    | .ok t => drawAll rest cs { fig with curves := fig.curves + 1 } (some t)

/-- `nightPlot(coords, date, plottype, ..., clf, ..., colors, plotkwargs)` (obstools.py:1478-1709), a dictionary being its values: `plt` is a local variable that
`colors` uses before it is set (1536-1537); the title needs the last table (1568, 1686, 1704). -/
def nightPlot {C T : Type} (rest : C → Except Err T) (coords : List C) (plottype : String) (clf colors : Bool) (kw : Kw) (fig : Fig) : Fig × Except Err Unit :=
  if colors then (fig, .error .unbound)
  else
    let fig := if clf then { fig with cleared := true, curves := 0 } else fig
    let cs := coords.take (kwCount coords.length kw)
    if plottype ∈ ["altam", "alt", "am", "altaz", "sky"] then
      let old := fig.right
      let fig := if plottype = "altam" then { fig with right := 86 / 100 } else fig
      match drawAll rest cs fig none with
      | (fig, .error e) => (fig, .error e)
      | (fig, .ok none) => (fig, .error .unbound)
      | (fig, .ok (some _)) => ({ fig with right := old }, .ok ())
    else (fig, .error .value)

/-! ## Theorems -/

/-- **C237.** No table of a night is ever made. -/
theorem table_never {C T : Type} (rest : C → Except Err T) (c : C) : nightTable rest c = .error .importE := if_neg (by decide)

theorem plot_aux {C T : Type} (rest : C → Except Err T) (coords : List C) (plottype : String) (clf colors : Bool) (kw : Kw) (fig : Fig) :
    ∃ e, (nightPlot rest coords plottype clf colors kw fig).2 = .error e ∧
      (e = .value ↔ colors = false ∧ plottype ∉ ["altam", "alt", "am", "altaz", "sky"]) ∧
      (e = .importE ↔ colors = false ∧ plottype ∈ ["altam", "alt", "am", "altaz", "sky"] ∧ coords ≠ [] ∧ kwCount coords.length kw ≠ 0) ∧
      (nightPlot rest coords plottype clf colors kw fig).1.curves = (if clf = true ∧ colors = false then 0 else fig.curves) ∧
      (nightPlot rest coords plottype clf colors kw fig).1.right = (if plottype = "altam" ∧ colors = false then 86 / 100 else fig.right) := by
  cases colors with
  | true => exact ⟨.unbound, rfl, by simp, by simp, by simp [nightPlot], by simp [nightPlot]⟩
  | false =>
    by_cases hp : plottype ∈ ["altam", "alt", "am", "altaz", "sky"]
    · cases hc : coords.take (kwCount coords.length kw) with
      | nil =>
        have he : coords = [] ∨ kwCount coords.length kw = 0 := by
          rcases List.take_eq_nil_iff.1 hc with h | h
          · exact .inr h
          · exact .inl h
        refine ⟨.unbound, ?_, by simp [hp], ?_, ?_, ?_⟩
        · simp [nightPlot, hp, hc, drawAll]
        · simp only [reduceCtorEq, false_iff]
          rintro ⟨-, -, h1, h2⟩
          exact he.elim h1 h2
        · cases clf <;> by_cases ha : plottype = "altam" <;> simp [nightPlot, hp, hc, drawAll, ha]
        · cases clf <;> by_cases ha : plottype = "altam" <;> simp [nightPlot, hp, hc, drawAll, ha]
      | cons c cs =>
        have he : coords ≠ [] ∧ kwCount coords.length kw ≠ 0 := by
          constructor
          · rintro rfl; simp at hc
          · intro h; rw [h] at hc; simp at hc
        refine ⟨.importE, ?_, by simp [hp], by simp [hp, he.1, he.2], ?_, ?_⟩
        · simp [nightPlot, hp, hc, drawAll, table_never]
        · cases clf <;> by_cases ha : plottype = "altam" <;> simp [nightPlot, hp, hc, drawAll, table_never, ha]
        · cases clf <;> by_cases ha : plottype = "altam" <;> simp [nightPlot, hp, hc, drawAll, table_never, ha]
    · refine ⟨.value, ?_, by simp [hp], by simp [hp], ?_, ?_⟩
      · simp [nightPlot, hp]
      · cases clf <;> simp [nightPlot, hp]
      · have ha : plottype ≠ "altam" := by rintro rfl; exact hp (by decide)
        cases clf <;> simp [nightPlot, hp, ha]

theorem kwCount_zero (n : ℕ) (h : n ≠ 0) (kw : Kw) : kwCount n kw ≠ 0 ↔ kw ≠ .list 0 := by cases kw <;> simp [kwCount, h]

/-- **C237.** No night is ever plotted: every call fails, with UnboundLocalError if colours are given, or no object or an empty list of keywords is, ValueError for an unknown kind of plot, else
ImportError; nothing is drawn in the figure, but it has been cleared if that was asked for, and the kind 'altam' has changed its margin for good. -/
theorem plot_never {C T : Type} (rest : C → Except Err T) (coords : List C) (plottype : String) (clf colors : Bool) (kw : Kw) (fig : Fig) :
    ∃ e, (nightPlot rest coords plottype clf colors kw fig).2 = .error e ∧
      (e = .value ↔ colors = false ∧ plottype ∉ ["altam", "alt", "am", "altaz", "sky"]) ∧
      (e = .importE ↔ colors = false ∧ plottype ∈ ["altam", "alt", "am", "altaz", "sky"] ∧ coords ≠ [] ∧ kw ≠ .list 0) ∧
      (nightPlot rest coords plottype clf colors kw fig).1.curves = (if clf = true ∧ colors = false then 0 else fig.curves) ∧
      (nightPlot rest coords plottype clf colors kw fig).1.right = (if plottype = "altam" ∧ colors = false then 86 / 100 else fig.right) := by
  obtain ⟨e, h1, h2, h3, h4⟩ := plot_aux rest coords plottype clf colors kw fig
  refine ⟨e, h1, h2, h3.trans ?_, h4⟩
  constructor
  · rintro ⟨a, b, c, d⟩
    exact ⟨a, b, c, (kwCount_zero _ (by simpa using c) kw).1 d⟩
  · rintro ⟨a, b, c, d⟩
    exact ⟨a, b, c, (kwCount_zero _ (by simpa using c) kw).2 d⟩

/-! ## Concrete cases -/

example : nightPlot (T := ℕ) (fun n => .ok n) [1, 2] "altam" true false .none ⟨false, 9/10, 3⟩ = (⟨true, 86/100, 0⟩, .error .importE) := by
  simp [nightPlot, drawAll, table_never, kwCount]

end Verif.NightPlot

import Mathlib.Data.List.Basic
import Mathlib.Data.List.TakeWhile
import Mathlib.Data.Rat.Defs

/-!
# Bands from files (astropysics/phot.py, `FileBand`, 686-716) (C247)

What `numpy.loadtxt` and `pyfits` read from the file are parameters: the numbers of the lines, and the two rows of the primary table.  What is made of the samples is in
Verif.PhotBand (`ArrayBand`).
-/

namespace Verif.FileBand

inductive Err
  | value | index | fits
  deriving DecidableEq, Repr

/-- What is after the last slash. -/
def baseName (p : List Char) : List Char := (p.reverse.takeWhile (· ≠ '/')).reverse

/-- `os.path.splitext(p)[1]`: what is from the last dot on in the file name, unless there are only dots before it. -/
def ext (p : List Char) : List Char :=
  let b := baseName p
  let e := (b.reverse.takeWhile (· ≠ '.')).reverse
  let front := b.take (b.length - e.length - 1)
  if '.' ∈ b ∧ (∃ c ∈ front, c ≠ '.') then '.' :: e else []

/-- The kind of file, phot.py 696-701 and 703-714: `none` for ValueError. -/
def kind (fn : List Char) : Option String → Option Bool
  | none =>
    let e := (ext fn).map Char.toLower
    if e = "fits".toList ∨ e = "fit".toList then some true else some false
  | some t => if t = "txt" then some false else if t = "fits" then some true else none

/-- `x,S = np.loadtxt(fn).T`, phot.py 704, and the check of `ArrayBand`: several lines of the same length are a table, which must have two columns; one line, or one column, is
one-dimensional, and two numbers from it are no arrays. -/
def readTxt (rows : List (List ℚ)) : Except Err (List ℚ × List ℚ) :=
  match rows with
  | [] => .error .value
  | [r] => if r.length = 2 then .error .index else .error .value
  | r :: s :: l =>
    if ∀ q ∈ s :: l, q.length = r.length then
      if r.length = 2 then .ok (rows.map (·.getD 0 0), rows.map (·.getD 1 0))
      else if r.length = 1 ∧ rows.length = 2 then .error .index
      else .error .value
    else .error .value

/-- `FileBand(fn,type)`: the samples given to `ArrayBand`. -/
def fileBand (txt : List Char → List (List ℚ)) (fits : List Char → Except Err (List ℚ × List ℚ)) (fn : List Char) (type : Option String) : Except Err (List ℚ × List ℚ) :=
  match kind fn type with
  | none => .error .value
  | some true => fits fn
  | some false => readTxt (txt fn)

theorem ext_dot (p : List Char) : ext p = [] ∨ ∃ e, ext p = '.' :: e := by
  unfold ext
  simp only
  split
  · exact .inr ⟨_, rfl⟩
  · exact .inl rfl

/-- **C247.** Without a type every file is read as text, also one called `something.fits`: the extension is compared without its dot. -/
theorem never_fits (txt : List Char → List (List ℚ)) (fits : List Char → Except Err (List ℚ × List ℚ)) (fn : List Char) :
    fileBand txt fits fn none = fileBand txt fits fn (some "txt") ∧ fileBand txt fits fn none = readTxt (txt fn) := by
  have hk : kind fn none = some false := by
    unfold kind
    rcases ext_dot fn with h | ⟨e, h⟩
    · rw [h]; decide
    · rw [h]
      have hd : ('.').toLower = '.' := by decide
      have h1 : ¬ (('.' :: e).map Char.toLower = "fits".toList ∨ ('.' :: e).map Char.toLower = "fit".toList) := by
        rw [List.map_cons, hd]
        rintro (h | h) <;> · have := congrArg List.head? h; revert this; simp
      simp only [if_neg h1]
  have ht : kind fn (some "txt") = some false := rfl
  unfold fileBand
  rw [hk, ht]
  exact ⟨rfl, rfl⟩

/-- **C247.** A FITS file is read if, and only if, the type says so; another type is a ValueError. -/
theorem types (txt : List Char → List (List ℚ)) (fits : List Char → Except Err (List ℚ × List ℚ)) (fn : List Char) :
    fileBand txt fits fn (some "fits") = fits fn ∧ fileBand txt fits fn (some "txt") = readTxt (txt fn) ∧
    (∀ t, t ≠ "fits" → t ≠ "txt" → fileBand txt fits fn (some t) = .error .value) := by
  refine ⟨?_, rfl, fun t h1 h2 => ?_⟩
  · have : kind fn (some "fits") = some true := by unfold kind; simp
    simp only [fileBand, this]
  · have : kind fn (some t) = none := by unfold kind; simp [h1, h2]
    simp only [fileBand, this]

/-- **C247.** A text file makes a band exactly if it has at least two lines, all of two numbers; the first numbers are the positions, the second ones the response. -/
theorem text_spec (rows : List (List ℚ)) :
    (∀ x S, readTxt rows = .ok (x, S) ↔ 2 ≤ rows.length ∧ (∀ r ∈ rows, r.length = 2) ∧ x = rows.map (·.getD 0 0) ∧ S = rows.map (·.getD 1 0)) ∧
    ((∃ x S, readTxt rows = .ok (x, S)) ↔ 2 ≤ rows.length ∧ ∀ r ∈ rows, r.length = 2) := by
  have key : ∀ x S, readTxt rows = .ok (x, S) ↔ 2 ≤ rows.length ∧ (∀ r ∈ rows, r.length = 2) ∧ x = rows.map (·.getD 0 0) ∧ S = rows.map (·.getD 1 0) := by
    intro x S
    match rows with
    | [] => simp [readTxt]
    | [r] => by_cases h : r.length = 2 <;> simp [readTxt, h]
    | r :: s :: l =>
      simp only [readTxt]
      by_cases h : ∀ q ∈ s :: l, q.length = r.length
      · rw [if_pos h]
        by_cases h2 : r.length = 2
        · rw [if_pos h2]
          constructor
          · intro e
            cases e
            refine ⟨by simp, ?_, rfl, rfl⟩
            intro q hq
            rcases List.mem_cons.1 hq with rfl | hq
            · exact h2
            · rw [h q hq, h2]
          · rintro ⟨-, -, rfl, rfl⟩; rfl
        · rw [if_neg h2]
          constructor
          · intro e; split at e <;> cases e
          · rintro ⟨-, h', -⟩; exact absurd (h' r List.mem_cons_self) h2
      · rw [if_neg h]
        constructor
        · intro e; cases e
        · rintro ⟨-, h', -⟩
          refine absurd (fun q hq => ?_) h
          rw [h' q (List.mem_cons_of_mem _ hq), h' r List.mem_cons_self]
  refine ⟨key, ?_⟩
  constructor
  · rintro ⟨x, S, h⟩
    obtain ⟨h1, h2, -⟩ := (key x S).1 h
    exact ⟨h1, h2⟩
  · rintro ⟨h1, h2⟩
    exact ⟨_, _, (key _ _).2 ⟨h1, h2, rfl, rfl⟩⟩

/-- **C247.** What `splitext` gives: from the last dot of the name on, when the name before it is not made of dots only. -/
theorem ext_spec (dir base e : List Char) (hb : '/' ∉ base) (he : '/' ∉ e) (hd : '.' ∉ e) (hc : ∃ c ∈ base, c ≠ '.') :
    ext (dir ++ '/' :: base ++ '.' :: e) = '.' :: e ∧ ext (base ++ '.' :: e) = '.' :: e := by
  have hbn : baseName (base ++ '.' :: e) = base ++ '.' :: e := by
    unfold baseName
    rw [List.takeWhile_eq_self_iff.2, List.reverse_reverse]
    intro c hc
    rw [List.mem_reverse, List.mem_append, List.mem_cons] at hc
    have : c ≠ '/' := by
      rintro rfl
      rcases hc with h | h | h
      · exact hb h
      · revert h; decide
      · exact he h
    simpa using this
  have hbn' : baseName (dir ++ '/' :: base ++ '.' :: e) = base ++ '.' :: e := by
    unfold baseName
    have e1 : (dir ++ '/' :: base ++ '.' :: e).reverse = (base ++ '.' :: e).reverse ++ '/' :: dir.reverse := by simp
    rw [e1, List.takeWhile_append_of_pos]
    · simp
    · intro c hc
      rw [List.mem_reverse, List.mem_append, List.mem_cons] at hc
      have : c ≠ '/' := by
        rintro rfl
        rcases hc with h | h | h
        · exact hb h
        · revert h; decide
        · exact he h
      simpa using this
  have hext : ((base ++ '.' :: e).reverse.takeWhile (· ≠ '.')).reverse = e := by
    have e1 : (base ++ '.' :: e).reverse = e.reverse ++ '.' :: base.reverse := by simp
    rw [e1, List.takeWhile_append_of_pos]
    · simp
    · intro c hc
      have : c ≠ '.' := by rintro rfl; exact hd (List.mem_reverse.1 hc)
      simpa using this
  have hfront : (base ++ '.' :: e).take ((base ++ '.' :: e).length - e.length - 1) = base := by
    have : (base ++ '.' :: e).length - e.length - 1 = base.length := by
      rw [List.length_append, List.length_cons]; omega
    rw [this, List.take_left]
  have hfin : ∀ p, baseName p = base ++ '.' :: e → ext p = '.' :: e := by
    intro p hp
    unfold ext
    simp only [hp]
    rw [hext, hfront, if_pos ⟨by simp, hc⟩]
  exact ⟨hfin _ hbn', hfin _ hbn⟩

/-! ## Concrete cases -/

example : ext "bands/V.FITS".toList = ".FITS".toList ∧ ext ".fits".toList = [] ∧ ext "a.b/c".toList = [] := by decide
example : fileBand (fun _ => [[1, 2], [3, 4]]) (fun _ => .error .fits) "V.fits".toList none = .ok ([1, 3], [2, 4]) := by
  rw [(never_fits _ _ _).2]; rfl

end Verif.FileBand

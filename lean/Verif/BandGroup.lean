import Mathlib.Data.List.Sort
import Mathlib.Data.List.Dedup
import Mathlib.Data.Rat.Defs
import Mathlib.Algebra.Order.Field.Rat
import Mathlib.Algebra.Order.Field.Basic
import Mathlib.Algebra.Order.Group.Abs
import Mathlib.Tactic.Linarith
import Mathlib.Tactic.FieldSimp
import Mathlib.Tactic.Ring
import Mathlib.Tactic.NormNum
import Mathlib.Tactic.SplitIfs

/-!
# Plotting a group of bands (astropysics/phot.py, `plot_band_group`, 719-813) (C232)

Names, order, colours and units.  Exact arithmetic.
-/

namespace Verif.BandGroup

/-- A band: its name, its centre in the unit of the plot, its unit now, and whether its unit can be changed (if not, a change raises `NotImplementedError`
and leaves it, spec.py:276-294; setting the unit it has is always possible). -/
structure Band where
  name : String
  cen : ℚ
  unit : String
  fixed : Bool
  deriving DecidableEq

/-- Colour: red, green, blue. -/
abbrev Rgb := ℚ × ℚ × ℚ

/-- The `i`-th of `n` colours (phot.py:780-792), `n ≥ 2`; a single band gets `0/0`. -/
def colour (bluetored : Bool) (n i : ℕ) : Rgb :=
  let b := 1 - (i : ℚ) * 2 / ((n : ℚ) - 1)
  let g := 1 - 2 * |1/2 - (i : ℚ) / ((n : ℚ) - 1)|
  let r := (i : ℚ) * 2 / ((n : ℚ) - 1) - 1
  let g := if g > 1/2 then 1/2 else g
  let r := if r < 0 then 0 else r
  let b := if b < 0 then 0 else b
  if bluetored then (r, g, b) else (b, g, r)

/-- What is drawn in: a colour, a letter, or something that is not a number. -/
inductive Paint
  | rgb (c : Rgb)
  | letter (c : Char)
  | nan
  deriving DecidableEq

/-- The names of the dictionary (phot.py:757). -/
def keys (bs : List Band) : List String := (bs.map (·.name)).dedup

/-- `d[n]`: the last band of that name. -/
def look (bs : List Band) (n : String) : Option Band := bs.reverse.find? fun b => b.name = n

/-- `d.get` as sort key. -/
def key (bs : List Band) (n : String) : ℚ := match look bs n with
  | some b => b.cen
  | none => 0

/-- `sortednames`, from the keys in any order (phot.py:758). -/
def sortedNames (bs : List Band) (order : List String) : List String := order.insertionSort fun a b => key bs a ≤ key bs b

/-- Does a name have another in it? (`n in sortednames[i]`) -/
def has (c : Char) (s : String) : Bool := s.toList.contains c

/-- The colours (phot.py:775-800): as many as bands, or five letters for UBVRI and ugriz. -/
def paints (bluetored : Bool) (n : ℕ) (names : List String) : List Paint :=
  let cs := if n = 1 then [Paint.nan] else (List.range n).map fun i => .rgb (colour bluetored n i)
  if names.length = 5 then
    if names.take 3 = ["U", "B", "V"] then ['c', 'b', 'g', 'r', 'm'].map .letter
    else if (names.zip ['u', 'g', 'r', 'i', 'z']).all (fun p => has p.2 p.1) then ['c', 'g', 'r', 'm', 'k'].map .letter
    else cs
  else cs

/-- Each name with the colour it is drawn in (phot.py:804-807), without colours given. -/
def drawn (bluetored : Bool) (bs : List Band) (order : List String) : List (String × Paint) :=
  (sortedNames bs order).zip (paints bluetored bs.length (sortedNames bs order))

/-- `b.unit = u` for bands and units in order, until one refuses (phot.py:766-770, 812-815). -/
def setUnits : List (Band × String) → List Band
  | [] => []
  | (b, u) :: l => if b.fixed = true ∧ b.unit ≠ u then b :: l.map (·.1) else { b with unit := u } :: setUnits l

/-- The bands after the plot: set to the unit of the plot, and back. -/
def during (unit : String) (bs : List Band) : List Band := setUnits (bs.map fun b => (b, unit))
def after (unit : String) (bs : List Band) : List Band := setUnits ((during unit bs).zip (bs.map (·.unit)))

/-! ## Theorems -/

/-- **C232.** Every name is drawn once, in the order of the centres of (the last) bands of these names, and if no two of these agree the order of the dictionary does not matter. -/
theorem names_sorted (bs : List Band) (order : List String) (h : order.Perm (keys bs)) :
    (sortedNames bs order).Perm (keys bs) ∧ (sortedNames bs order).Nodup ∧ (sortedNames bs order).Pairwise (fun a b => key bs a ≤ key bs b) ∧
    ((∀ a ∈ keys bs, ∀ b ∈ keys bs, key bs a = key bs b → a = b) → ∀ order', order'.Perm (keys bs) → sortedNames bs order' = sortedNames bs order) := by
  have tot : Std.Total fun a b : String => key bs a ≤ key bs b := ⟨fun a b => le_total _ _⟩
  have tr : IsTrans String fun a b => key bs a ≤ key bs b := ⟨fun a b c h1 h2 => le_trans h1 h2⟩
  have hp : ∀ o : List String, o.Perm (keys bs) → (sortedNames bs o).Perm (keys bs) := fun o ho => (List.perm_insertionSort _ o).trans ho
  have hs : ∀ o : List String, (sortedNames bs o).Pairwise (fun a b => key bs a ≤ key bs b) := fun o => List.pairwise_insertionSort _ o
  refine ⟨hp _ h, (hp _ h).nodup_iff.2 (List.nodup_dedup _), hs _, ?_⟩
  intro hd order' h'
  refine ((hp _ h').trans (hp _ h).symm).eq_of_pairwise ?_ (hs _) (hs _)
  intro a b ha hb h1 h2
  exact hd a ((hp _ h').mem_iff.1 ha) b ((hp _ h).mem_iff.1 hb) (le_antisymm h1 h2)

/-- The band of a name is one of that name. -/
theorem look_spec (bs : List Band) (n : String) (h : n ∈ keys bs) : ∃ b ∈ bs, look bs n = some b ∧ b.name = n := by
  obtain ⟨b, hb, rfl⟩ := List.mem_map.1 (List.mem_dedup.1 h)
  cases hf : look bs b.name with
  | none =>
    have := List.find?_eq_none.1 hf b (List.mem_reverse.2 hb)
    simp at this
  | some c =>
    have h1 := List.find?_some hf
    have h2 := List.mem_reverse.1 (List.mem_of_find?_eq_some hf)
    exact ⟨c, h2, rfl, by simpa using h1⟩

/-- **C232.** The colours of `n ≥ 2` bands: valid, from pure blue to pure red, symmetric, all different; plotted by frequency they run the other way. -/
theorem colours (n : ℕ) (h : 2 ≤ n) :
    (∀ m i, i < n → (0 ≤ (colour m n i).1 ∧ (colour m n i).1 ≤ 1) ∧ (0 ≤ (colour m n i).2.1 ∧ (colour m n i).2.1 ≤ 1/2) ∧
      (0 ≤ (colour m n i).2.2 ∧ (colour m n i).2.2 ≤ 1)) ∧
    colour true n 0 = (0, 0, 1) ∧ colour true n (n - 1) = (1, 0, 0) ∧
    (∀ i, i < n → colour false n i = colour true n (n - 1 - i)) ∧
    (∀ m i j, i < n → j < n → colour m n i = colour m n j → i = j) := by
  have hn : (0 : ℚ) < (n : ℚ) - 1 := by
    have : (2 : ℚ) ≤ (n : ℚ) := by exact_mod_cast h
    linarith
  have hb : ∀ i, i < n → 0 ≤ (i : ℚ) / ((n : ℚ) - 1) ∧ (i : ℚ) / ((n : ℚ) - 1) ≤ 1 := by
    intro i hi
    have : (i : ℚ) + 1 ≤ (n : ℚ) := by exact_mod_cast hi
    exact ⟨div_nonneg (Nat.cast_nonneg i) hn.le, by rw [div_le_one hn]; linarith⟩
  have hmul : ∀ i : ℕ, (i : ℚ) * 2 / ((n : ℚ) - 1) = 2 * ((i : ℚ) / ((n : ℚ) - 1)) := fun i => by ring
  have habs : ∀ t : ℚ, 0 ≤ t → t ≤ 1 → 0 ≤ 1 - 2 * |1/2 - t| := by
    intro t h0 h1
    have : |1/2 - t| ≤ 1/2 := abs_le.2 ⟨by linarith, by linarith⟩
    linarith
  refine ⟨?_, ?_, ?_, ?_, ?_⟩
  · intro m i hi
    obtain ⟨h0, h1⟩ := hb i hi
    have h2 := habs _ h0 h1
    simp only [colour, hmul]
    generalize (i : ℚ) / ((n : ℚ) - 1) = t at *
    cases m <;> simp only [if_true, Bool.false_eq_true, if_false] <;> refine ⟨⟨?_, ?_⟩, ⟨?_, ?_⟩, ⟨?_, ?_⟩⟩ <;> split_ifs <;> linarith
  · simp [colour]
  · have e : ((n - 1 : ℕ) : ℚ) / ((n : ℚ) - 1) = 1 := by
      rw [Nat.cast_sub (by omega)]; simp only [Nat.cast_one]; exact div_self hn.ne'
    simp only [colour, hmul, e]
    norm_num
  · intro i hi
    have e : ((n - 1 - i : ℕ) : ℚ) / ((n : ℚ) - 1) = 1 - (i : ℚ) / ((n : ℚ) - 1) := by
      rw [Nat.cast_sub (by omega), Nat.cast_sub (by omega)]; simp only [Nat.cast_one]; rw [sub_div, div_self hn.ne']
    simp only [colour, hmul, e]
    generalize (i : ℚ) / ((n : ℚ) - 1) = t
    have a1 : 2 * (1 - t) - 1 = 1 - 2 * t := by ring
    have a2 : 1 - 2 * (1 - t) = 2 * t - 1 := by ring
    have a3 : |1/2 - (1 - t)| = |1/2 - t| := by rw [abs_sub_comm]; congr 1; ring
    rw [a1, a2, a3]
    simp
  · intro m i j hi hj he
    have key : (i : ℚ) / ((n : ℚ) - 1) = (j : ℚ) / ((n : ℚ) - 1) := by
      simp only [colour, hmul] at he
      generalize (i : ℚ) / ((n : ℚ) - 1) = t at *
      generalize (j : ℚ) / ((n : ℚ) - 1) = u at *
      cases m <;> simp only [if_true, Bool.false_eq_true, if_false, Prod.mk.injEq] at he <;> obtain ⟨e1, -, e2⟩ := he <;>
        split_ifs at e1 e2 <;> linarith
    have : (i : ℚ) = (j : ℚ) := by
      field_simp at key
      exact key
    exact_mod_cast this

/-- **C232.** With different names and not UBVRI or ugriz, all bands are drawn, the `i`-th by centre with the `i`-th colour. -/
theorem all_drawn (m : Bool) (bs : List Band) (order : List String) (h : order.Perm (keys bs)) (hn : (bs.map (·.name)).Nodup) (h5 : bs.length ≠ 5) (h1 : bs.length ≠ 1) :
    (drawn m bs order).map Prod.fst = sortedNames bs order ∧
    ∀ (i : ℕ) (n : String), (sortedNames bs order)[i]? = some n → (drawn m bs order)[i]? = some (n, .rgb (colour m bs.length i)) := by
  have hl : (sortedNames bs order).length = bs.length := by
    refine (List.perm_insertionSort _ order).length_eq.trans ?_
    rw [h.length_eq, keys, hn.dedup, List.length_map]
  have hp : paints m bs.length (sortedNames bs order) = (List.range bs.length).map fun i => .rgb (colour m bs.length i) := by
    unfold paints; rw [if_neg (by rw [hl]; exact h5), if_neg h1]
  unfold drawn
  rw [hp]
  constructor
  · rw [List.map_fst_zip]; simp [hl]
  · intro i n hi
    have : i < bs.length := by rw [← hl]; exact (List.getElem?_eq_some_iff.1 hi).1
    rw [List.getElem?_zip_eq_some]
    exact ⟨hi, by simp [this]⟩

/-- **C232.** With bands of the same name only the last is drawn, and the red end of the colours is left out. -/
theorem duplicates (m : Bool) (bs : List Band) (order : List String) (h : order.Perm (keys bs)) (hn : ¬ (bs.map (·.name)).Nodup) (h5 : (keys bs).length ≠ 5) :
    2 ≤ bs.length ∧ (drawn m bs order).length < bs.length ∧ ∀ p ∈ drawn m bs order, p.2 ≠ .rgb (colour m bs.length (bs.length - 1)) := by
  have hlt : (keys bs).length < bs.length := by
    unfold keys
    have h1 := (List.dedup_sublist (bs.map (·.name))).length_le
    rw [List.length_map] at h1
    rcases Nat.lt_or_ge (bs.map (·.name)).dedup.length bs.length with h2 | h2
    · exact h2
    · have := (List.dedup_sublist (bs.map (·.name))).eq_of_length_le (by rw [List.length_map]; exact h2)
      exact absurd (by rw [← this]; exact List.nodup_dedup _) hn
  have hl : (sortedNames bs order).length = (keys bs).length := (List.perm_insertionSort _ order).length_eq.trans h.length_eq
  have h2 : 2 ≤ bs.length := by
    match bs, hn with
    | [], hn => exact absurd List.nodup_nil hn
    | [b], hn => exact absurd (List.nodup_singleton _) hn
    | a :: b :: l, _ => simp
  have hp : paints m bs.length (sortedNames bs order) = (List.range bs.length).map fun i => .rgb (colour m bs.length i) := by
    unfold paints; rw [if_neg (by rw [hl]; exact h5), if_neg (by omega)]
  unfold drawn
  rw [hp]
  refine ⟨h2, by rw [List.length_zip]; omega, ?_⟩
  intro p hpm e
  obtain ⟨i, hi⟩ := List.getElem?_of_mem hpm
  rw [List.getElem?_zip_eq_some] at hi
  have hik := (List.getElem?_eq_some_iff.1 hi.1).1
  have hib : i < bs.length := by omega
  have he : p.2 = .rgb (colour m bs.length i) := by
    have := hi.2
    simp [hib] at this
    exact this.symm
  rw [he] at e
  have := (colours bs.length h2).2.2.2.2 m i (bs.length - 1) hib (by omega) (Paint.rgb.inj e)
  omega

/-- Setting units stops at the first that refuses. -/
theorem setUnits_spec (l : List (Band × String)) :
    (setUnits l).length = l.length ∧ ∀ b ∈ (setUnits l).zip l, b.1 = b.2.1 ∨ b.1 = { b.2.1 with unit := b.2.2 } ∧ (b.2.1.fixed = true → b.2.1.unit = b.2.2) := by
  induction l with
  | nil => exact ⟨rfl, by simp [setUnits]⟩
  | cons p l ih =>
    obtain ⟨b, u⟩ := p
    unfold setUnits
    split
    · next h =>
      refine ⟨by simp, ?_⟩
      intro q hq
      left
      simp only [List.zip_cons_cons, List.mem_cons] at hq
      rcases hq with rfl | hq
      · rfl
      · rw [List.zip_map_left] at hq
        obtain ⟨⟨a, c⟩, hac, rfl⟩ := List.mem_map.1 hq
        have : a = c := by
          have hz : ∀ (l : List (Band × String)), ∀ p ∈ l.zip l, p.1 = p.2 := by
            intro l
            induction l with
            | nil => intro p hp; simp at hp
            | cons x l ih2 =>
              intro p hp
              simp only [List.zip_cons_cons, List.mem_cons] at hp
              rcases hp with rfl | hp
              · rfl
              · exact ih2 p hp
          exact hz l _ hac
        simp [this]
    · next h =>
      refine ⟨by simp [ih.1], ?_⟩
      intro q hq
      simp only [List.zip_cons_cons, List.mem_cons] at hq
      rcases hq with rfl | hq
      · right
        refine ⟨rfl, fun hf => ?_⟩
        by_contra hne
        exact h ⟨hf, hne⟩
      · exact ih.2 q hq

/-- **C232.** After the plot every band has its old unit, whatever bands refuse the unit of the plot. -/
theorem units_restored (unit : String) (bs : List Band) : after unit bs = bs := by
  unfold after during
  induction bs with
  | nil => rfl
  | cons b bs ih =>
    simp only [List.map_cons, setUnits]
    split
    · simp only [List.map_map]
      have e : (Prod.fst ∘ fun b : Band => (b, unit)) = id := rfl
      rw [e, List.map_id]
      simp only [List.zip_cons_cons, setUnits]
      rw [if_neg (by simp)]
      congr 1
      have : ∀ l : List Band, setUnits (l.zip (l.map (·.unit))) = l := by
        intro l
        induction l with
        | nil => rfl
        | cons a l ih => simp only [List.map_cons, List.zip_cons_cons, setUnits]; rw [if_neg (by simp), ih]
      exact this bs
    · next h =>
      simp only [List.zip_cons_cons, setUnits]
      rw [if_neg, ih]
      rintro ⟨h1, h2⟩
      exact h ⟨h1, fun h3 => h2 h3.symm⟩

/-- **C232.** UBVRI and ugriz are drawn in their own colours; a single band in none. -/
theorem special (m : Bool) (n : ℕ) (a b : String) :
    paints m n ["U", "B", "V", a, b] = [.letter 'c', .letter 'b', .letter 'g', .letter 'r', .letter 'm'] ∧
    paints m n ["u", "g", "r", "i", "z"] = [.letter 'c', .letter 'g', .letter 'r', .letter 'm', .letter 'k'] ∧
    paints m 1 [a] = [.nan] := by
  refine ⟨rfl, ?_, rfl⟩
  have : ((["u", "g", "r", "i", "z"] : List String).zip ['u', 'g', 'r', 'i', 'z']).all (fun p => has p.2 p.1) = true := by decide +kernel
  simp only [paints, this, if_true]
  rfl

/-! ## Concrete cases -/

def grp : List Band := [⟨"K", 22000, "wl", false⟩, ⟨"J", 12000, "wl", true⟩, ⟨"H", 16000, "frequency", false⟩]

example : sortedNames grp (keys grp) = ["J", "H", "K"] := by decide +kernel

example : (drawn true grp (keys grp)).map Prod.snd = [.rgb (0, 0, 1), .rgb (0, 1/2, 0), .rgb (1, 0, 0)] := by decide +kernel

example : (during "nu" grp).map (·.unit) = ["nu", "wl", "frequency"] := by decide +kernel

example : (grp.map (·.name)).Nodup ∧ ¬ ((grp ++ grp).map (·.name)).Nodup := by decide +kernel

end Verif.BandGroup

import Mathlib.Data.List.Basic
import Mathlib.Data.List.Range
import Mathlib.Tactic.Linarith

/-!
# Marking the targets of a finished mask (astropysics/gui/spectarget.py 752-791) (C213)

`doneToG0(fn,cmda,forceradec)` reads the output of dsimulator and puts the selected objects into group 0.  A line is its words, with whether it is a comment and
which of the two headings it holds; `int` of a word and the matching by position (`match_coords`, C75) are parameters.
-/

namespace Verif.DoneTargets

inductive Err
  | value
  | index
  | other
  deriving DecidableEq

structure Line where
  words : List String
  comment : Bool
  objects : Bool
  guide : Bool

/-- A selected object: its number, right ascension and declination, as written. -/
abbrev Entry := ℤ × String × String

/-- One line of the section, spectarget.py 762-766: objects whose priority and selection are not negative. -/
def entry (int : String → Option ℤ) (ws : List String) : Except Err (Option Entry) :=
  match ws[6]? with
  | none => .error .index
  | some w6 => match int w6 with
    | none => .error .value
    | some a => if a < 0 then .ok none else
      match ws[8]? with
      | none => .error .index
      | some w8 => match int w8 with
        | none => .error .value
        | some b => if b < 0 then .ok none else
          match int (ws.getD 0 "") with
          | none => .error .value
          | some n => .ok (some (n, ws.getD 1 "", ws.getD 2 ""))

/-- The loop over the lines, spectarget.py 758-771. -/
def read (int : String → Option ℤ) : Bool → List Line → Except Err (List Entry)
  | _, [] => .ok []
  | watch, l :: rest =>
    match (if watch = true ∧ l.words ≠ [] ∧ l.comment = false then entry int l.words else .ok none) with
    | .error e => .error e
    | .ok o => if l.guide then .ok o.toList else
      match read int (watch || l.objects) rest with
      | .error e => .error e
      | .ok r => .ok (o.toList ++ r)

/-- `g[idx] = 0` -/
def mark (g : List ℤ) (idx : List ℤ) : Except Err (List ℤ) :=
  if idx.all fun i => decide (-(g.length : ℤ) ≤ i ∧ i < g.length) then
    .ok (g.mapIdx fun k v => if idx.any fun i => decide (i = k ∨ i + g.length = k) then 0 else v)
  else .error .index

/-- `doneToG0`: how it ends and the groups afterwards; `nd` is the number of objects; groups that are there are changed in place. -/
def done (int : String → Option ℤ) (positions : List (String × String) → Except Err (List ℤ)) (nd : ℕ) (force : Bool) (groups : Option (List ℤ))
    (lines : List Line) : Except Err Unit × Option (List ℤ) :=
  match read int false lines with
  | .error e => (.error e, groups)
  | .ok es =>
    let g := groups.getD (List.replicate nd 1)
    let idx := es.map fun e => e.1 - 1
    let finish (r : Except Err (List ℤ)) : Except Err Unit × Option (List ℤ) := match r with
      | .error e => (.error e, groups)
      | .ok g' => (.ok (), if groups.isSome then some g' else if g'.all (fun v => v ≠ 0) then none else some g')
    if force = false ∧ es = [] then (.error .value, groups)
    else if force = true ∨ idx.any (fun i => decide ((g.length : ℤ) ≤ i)) then
      match positions (es.map (·.2)) with
      | .error e => (.error e, groups)
      | .ok mask => finish (mark g mask)
    else finish (mark g idx)

/-! ## Specification -/

/-- A line of the section that counts as data. -/
def Data (l : Line) : Prop := l.words ≠ [] ∧ l.comment = false

/-- A data line with at least nine words, of which the first, seventh and ninth are numbers. -/
def Good (int : String → Option ℤ) (l : Line) (n a b : ℤ) (ra dec : String) : Prop :=
  ∃ w0 w3 w4 w5 w6 w7 w8 rest, l.words = w0 :: ra :: dec :: w3 :: w4 :: w5 :: w6 :: w7 :: w8 :: rest ∧ int w0 = some n ∧ int w6 = some a ∧ int w8 = some b

/-- What one line of the section gives. -/
inductive Gives (int : String → Option ℤ) : Line → List Entry → Prop
  | skip (l) : ¬ Data l → Gives int l []
  | selected (l n a b ra dec) : Data l → Good int l n a b ra dec → 0 ≤ a → 0 ≤ b → Gives int l [(n, ra, dec)]
  | passed (l n a b ra dec) : Data l → Good int l n a b ra dec → a < 0 ∨ b < 0 → Gives int l []

theorem entry_good (int : String → Option ℤ) (l : Line) (n a b : ℤ) (ra dec : String) (h : Good int l n a b ra dec) :
    entry int l.words = .ok (if 0 ≤ a ∧ 0 ≤ b then some (n, ra, dec) else none) := by
  obtain ⟨w0, w3, w4, w5, w6, w7, w8, rest, hw, h0, h6, h8⟩ := h
  unfold entry
  rw [hw]
  simp only [List.getElem?_cons_succ, List.getElem?_cons_zero, h6, h8, List.getD_cons_zero, h0, List.getD_cons_succ]
  by_cases ha : 0 ≤ a <;> by_cases hb : 0 ≤ b
  · simp [ha, hb, not_lt.2 ha, not_lt.2 hb]
  · simp [hb, not_lt.2 ha, not_le.1 hb]
  · simp [ha, not_le.1 ha]
  · simp [ha, not_le.1 ha]

theorem step_gives (int : String → Option ℤ) (l : Line) (es : List Entry) (h : Gives int l es) :
    ∃ o : Option Entry, (if true = true ∧ l.words ≠ [] ∧ l.comment = false then entry int l.words else .ok none) = (.ok o : Except Err _) ∧ o.toList = es := by
  cases h with
  | skip hd => exact ⟨none, by rw [if_neg]; rintro ⟨-, h⟩; exact hd h, rfl⟩
  | selected n a b ra dec hd hg ha hb =>
    exact ⟨some (n, ra, dec), by rw [if_pos ⟨rfl, hd⟩, entry_good int l n a b ra dec hg, if_pos ⟨ha, hb⟩], rfl⟩
  | passed n a b ra dec hd hg hab =>
    exact ⟨none, by rw [if_pos ⟨rfl, hd⟩, entry_good int l n a b ra dec hg, if_neg (by omega)], rfl⟩

theorem read_body (int : String → Option ℤ) (body : List Line) (ess : List (List Entry)) (h : List.Forall₂ (Gives int) body ess) (hb : ∀ l ∈ body, l.guide = false)
    (rest : List Line) (r : List Entry) (hr : read int true rest = .ok r) : read int true (body ++ rest) = .ok (ess.flatten ++ r) := by
  induction h with
  | nil => simpa using hr
  | @cons l es body ess h1 _ ih =>
    obtain ⟨o, ho, he⟩ := step_gives int l es h1
    rw [List.cons_append]
    unfold read
    rw [ho]
    simp only [hb l (by simp), Bool.false_eq_true, if_false, Bool.true_or, ih fun x hx => hb x (by simp [hx]), he]
    simp

theorem read_before (int : String → Option ℤ) (pre : List Line) (hp : ∀ l ∈ pre, l.objects = false ∧ l.guide = false) (rest : List Line) :
    read int false (pre ++ rest) = read int false rest := by
  induction pre with
  | nil => rfl
  | cons l pre ih =>
    rw [List.cons_append]
    conv_lhs => unfold read
    simp only [Bool.false_eq_true, false_and, if_false, (hp l (by simp)).2, (hp l (by simp)).1, Bool.or_false, ih fun x hx => hp x (by simp [hx])]
    cases read int false rest <;> simp

/-- C213: the objects read are those of the lines after the first 'Selected Objects' up to the next 'Selected Guide', in order; a line gives its object exactly if
its seventh and ninth words are not negative; blank lines and comments give nothing, and neither does anything before or after. -/
theorem section_read (int : String → Option ℤ) (pre body post : List Line) (head guide : Line) (ess : List (List Entry)) (gs : List Entry)
    (hp : ∀ l ∈ pre, l.objects = false ∧ l.guide = false) (hh : head.objects = true ∧ head.guide = false) (hb : ∀ l ∈ body, l.guide = false)
    (hg : guide.guide = true) (h : List.Forall₂ (Gives int) body ess) (hgs : Gives int guide gs) :
    read int false (pre ++ head :: (body ++ guide :: post)) = .ok (ess.flatten ++ gs) := by
  rw [read_before int pre hp]
  unfold read
  simp only [Bool.false_eq_true, false_and, if_false, hh.1, hh.2, Bool.or_true]
  rw [read_body int body ess h hb (guide :: post) gs]
  · simp
  · obtain ⟨o, ho, he⟩ := step_gives int guide gs hgs
    unfold read
    rw [ho]
    simp only [hg, if_true, he]

/-- C213: without the first heading before the second nothing is read, and that is a ValueError (unless positions are asked for) that changes nothing. -/
theorem nothing_selected (int : String → Option ℤ) (positions : List (String × String) → Except Err (List ℤ)) (nd : ℕ) (groups : Option (List ℤ)) (lines : List Line) :
    (read int false lines = .ok [] → done int positions nd false groups lines = (.error .value, groups)) ∧
    (∀ pre post, lines = pre ++ post → (∀ l ∈ pre, l.objects = false) → (post = [] ∨ ∃ l, pre.getLast? = some l ∧ l.guide = true) →
      read int false lines = .ok []) := by
  refine ⟨fun h => by simp [done, h], ?_⟩
  rintro pre post rfl h hp
  induction pre with
  | nil =>
    rcases hp with rfl | ⟨l, hl, -⟩
    · rfl
    · simp at hl
  | cons l pre ih =>
    rw [List.cons_append]
    unfold read
    simp only [Bool.false_eq_true, false_and, if_false, h l (by simp), Bool.or_false]
    cases hg : l.guide with
    | true => simp
    | false =>
      rw [ih (fun x hx => h x (by simp [hx]))]
      · simp
      · rcases hp with hp | ⟨x, hx, hxg⟩
        · exact .inl hp
        · right
          cases pre with
          | nil =>
            simp only [List.getLast?_singleton, Option.some.injEq] at hx
            rw [← hx, hg] at hxg; cases hxg
          | cons y pre => exact ⟨x, by simpa [List.getLast?_cons_cons] using hx, hxg⟩

/-- Which object a number stands for: 1 is the first; also (limit) 0 is the last, and negative numbers count on from there. -/
def Names (nd : ℕ) (n : ℤ) (k : ℕ) : Prop := n = k + 1 ∨ n + nd = k + 1

theorem mark_spec (g idx : List ℤ) (h : ∀ i ∈ idx, -(g.length : ℤ) ≤ i ∧ i < g.length) :
    ∃ g', mark g idx = .ok g' ∧ g'.length = g.length ∧ ∀ (k : ℕ) (v : ℤ), g[k]? = some v →
      g'[k]? = some (if ∃ i ∈ idx, i = k ∨ i + g.length = k then 0 else v) := by
  refine ⟨_, by unfold mark; rw [if_pos (by simpa using h)], by simp, fun k v hk => ?_⟩
  rw [List.getElem?_mapIdx, hk]
  simp only [Option.map_some, Option.some.injEq]
  by_cases hc : ∃ i ∈ idx, i = k ∨ i + g.length = k
  · rw [if_pos hc, if_pos]
    simpa using hc
  · rw [if_neg hc, if_neg]
    simpa using hc

/-- C213: if all numbers are within the catalogue, exactly the objects they stand for are put into group 0; all others keep their group, or are in group 1 if there
were no groups. -/
theorem put_into_group_0 (int : String → Option ℤ) (positions : List (String × String) → Except Err (List ℤ)) (nd : ℕ) (groups : Option (List ℤ)) (lines : List Line)
    (es : List Entry) (hr : read int false lines = .ok es) (hne : es ≠ []) (hg : ∀ g, groups = some g → g.length = nd)
    (hn : ∀ e ∈ es, -(nd : ℤ) < e.1 ∧ e.1 ≤ nd) :
    ∃ g', done int positions nd false groups lines = (.ok (), some g') ∧ g'.length = nd ∧
      ∀ k, k < nd → ((∃ e ∈ es, Names nd e.1 k) → g'[k]? = some 0) ∧
        ((¬ ∃ e ∈ es, Names nd e.1 k) → g'[k]? = (groups.getD (List.replicate nd 1))[k]?) := by
  set g := groups.getD (List.replicate nd 1) with hgd
  have hlen : g.length = nd := by
    rw [hgd]
    cases h : groups with
    | none => simp
    | some x => simpa [h] using hg x h
  obtain ⟨g', hm, hl, hs⟩ := mark_spec g (es.map fun e => e.1 - 1) (by
    intro i hi
    obtain ⟨e, he, rfl⟩ := List.mem_map.1 hi
    have := hn e he
    rw [hlen]; omega)
  have hin : ∀ k : ℕ, (∃ i ∈ (es.map (fun e => e.1 - 1) : List ℤ), i = (k : ℤ) ∨ i + g.length = (k : ℤ)) ↔ ∃ e ∈ es, Names nd e.1 k := by
    intro k
    rw [hlen]
    constructor
    · rintro ⟨i, hi, h⟩
      obtain ⟨e, he, rfl⟩ := List.mem_map.1 hi
      exact ⟨e, he, by unfold Names; omega⟩
    · rintro ⟨e, he, h⟩
      exact ⟨e.1 - 1, List.mem_map.2 ⟨e, he, rfl⟩, by unfold Names at h; omega⟩
  have hval : ∀ k, k < nd → ∃ v, g[k]? = some v := fun k hk => ⟨_, List.getElem?_eq_getElem (by omega)⟩
  have hnot : ¬ ((es.map fun e => e.1 - 1).any fun i => decide ((g.length : ℤ) ≤ i)) = true := by
    simp only [List.any_map, List.any_eq_true, Function.comp, decide_eq_true_eq, not_exists, not_and, hlen]
    intro e he
    have := hn e he
    omega
  have hdone : done int positions nd false groups lines = (.ok (), if groups.isSome then some g' else if g'.all (fun v => v ≠ 0) then none else some g') := by
    unfold done
    rw [hr]
    simp only [hne, and_false, if_false, Bool.false_eq_true, false_or]
    rw [← hgd, if_neg hnot, hm]
  refine ⟨g', ?_, hl.trans hlen, fun k hk => ⟨fun he => ?_, fun he => ?_⟩⟩
  · rw [hdone]
    cases hgr : groups with
    | some x => simp
    | none =>
      have : ¬ (g'.all fun v => v ≠ 0) = true := by
        obtain ⟨e, he⟩ := List.exists_mem_of_ne_nil es hne
        have hb := hn e he
        obtain ⟨k, hk, hkn⟩ : ∃ k : ℕ, k < nd ∧ Names nd e.1 k := by
          by_cases h1 : 1 ≤ e.1
          · exact ⟨(e.1 - 1).toNat, by omega, by unfold Names; omega⟩
          · exact ⟨(e.1 + nd - 1).toNat, by omega, by unfold Names; omega⟩
        obtain ⟨v, hv⟩ := hval k hk
        have h0 := hs k v hv
        rw [if_pos ((hin k).2 ⟨e, he, hkn⟩)] at h0
        simp only [List.all_eq_true, decide_eq_true_eq, not_forall, not_not]
        exact ⟨0, List.mem_of_getElem? h0, rfl⟩
      simp only [Option.isSome_none, Bool.false_eq_true, if_false, if_neg this]
  · obtain ⟨v, hv⟩ := hval k hk
    rw [hs k v hv, if_pos ((hin k).2 he)]
  · obtain ⟨v, hv⟩ := hval k hk
    rw [hs k v hv, if_neg fun h => he ((hin k).1 h)]
    exact hv.symm

/-- C213, limit: an object numbered 0 puts the last one of the catalogue into group 0. -/
theorem zero_is_last (int : String → Option ℤ) (positions : List (String × String) → Except Err (List ℤ)) (nd : ℕ) (hnd : 0 < nd) (lines : List Line) (ra dec : String)
    (hr : read int false lines = .ok [(0, ra, dec)]) :
    ∃ g', done int positions nd false none lines = (.ok (), some g') ∧ g'[nd - 1]? = some 0 ∧ ∀ k, k + 1 < nd → g'[k]? = some 1 := by
  obtain ⟨g', h1, h2, h3⟩ := put_into_group_0 int positions nd none lines _ hr (by simp) (by simp) (by simp; omega)
  refine ⟨g', h1, (h3 (nd - 1) (by omega)).1 ⟨_, List.mem_singleton.2 rfl, by unfold Names; simp only; omega⟩, fun k hk => ?_⟩
  have := (h3 k (by omega)).2 (by
    rintro ⟨e, he, hn⟩
    rw [List.mem_singleton] at he
    subst he
    unfold Names at hn
    simp only at hn
    omega)
  rw [this]
  simp only [Option.getD_none, List.getElem?_replicate]
  rw [if_pos (by omega)]

/-- C213: if a number is beyond the catalogue, or on request, the numbers are not used at all: the objects found by position are put into group 0. -/
theorem by_position (int : String → Option ℤ) (positions : List (String × String) → Except Err (List ℤ)) (nd : ℕ) (force : Bool) (groups : Option (List ℤ))
    (lines : List Line) (es : List Entry) (hr : read int false lines = .ok es) (hg : ∀ g, groups = some g → g.length = nd)
    (hf : force = true ∨ ∃ e ∈ es, (nd : ℤ) < e.1) :
    (∀ err, positions (es.map (·.2)) = .error err → done int positions nd force groups lines = (.error err, groups)) ∧
    (∀ mask, positions (es.map (·.2)) = .ok mask → (∀ i ∈ mask, 0 ≤ i ∧ i < nd) →
      ∃ g', (done int positions nd force groups lines).1 = .ok () ∧ ((done int positions nd force groups lines).2.getD (List.replicate nd 1)) = g' ∧
        g'.length = nd ∧ ∀ (k : ℕ) (v : ℤ), (groups.getD (List.replicate nd 1))[k]? = some v → g'[k]? = some (if (k : ℤ) ∈ mask then 0 else v)) := by
  set g := groups.getD (List.replicate nd 1) with hgd
  have hlen : g.length = nd := by
    rw [hgd]
    cases h : groups with
    | none => simp
    | some x => simpa [h] using hg x h
  have h1 : ¬ (force = false ∧ es = []) := by
    rintro ⟨h, rfl⟩
    rcases hf with hf | ⟨e, he, -⟩
    · rw [h] at hf; cases hf
    · simp at he
  have h2 : force = true ∨ ((es.map fun e => e.1 - 1).any fun i => decide ((g.length : ℤ) ≤ i)) = true := by
    rcases hf with hf | ⟨e, he, hn⟩
    · exact .inl hf
    · right
      simp only [List.any_map, List.any_eq_true, Function.comp, decide_eq_true_eq, hlen]
      exact ⟨e, he, by omega⟩
  constructor
  · intro err he
    unfold done
    rw [hr]
    simp only
    rw [if_neg h1, if_pos h2, he]
  · intro mask hm hin
    obtain ⟨g', hmk, hl, hs⟩ := mark_spec g mask (fun i hi => by have := hin i hi; rw [hlen]; omega)
    have hdone : done int positions nd force groups lines = (.ok (), if groups.isSome then some g' else if g'.all (fun v => v ≠ 0) then none else some g') := by
      unfold done
      rw [hr]
      simp only
      rw [if_neg h1, if_pos h2, hm]
      simp only
      rw [hmk]
    have hval : ∀ (k : ℕ) (v : ℤ), g[k]? = some v → g'[k]? = some (if (k : ℤ) ∈ mask then 0 else v) := by
      intro k v hk
      rw [hs k v hk]
      congr 1
      refine if_congr ?_ rfl rfl
      have hkl := (List.getElem?_eq_some_iff.1 hk).1
      constructor
      · rintro ⟨i, hi, h | h⟩
        · rw [← h]; exact hi
        · have := hin i hi; omega
      · exact fun h => ⟨k, h, .inl rfl⟩
    refine ⟨g', by rw [hdone], ?_, hl.trans hlen, hval⟩
    rw [hdone]
    cases hgr : groups with
    | some x => simp
    | none =>
      simp only [Option.isSome_none, Bool.false_eq_true, if_false]
      split_ifs with hall
      · -- nothing matched: the groups stay away, which is all ones
        apply List.ext_getElem? 
        intro k
        rw [Option.getD_none]
        by_cases hk : k < nd
        · have hone : g[k]? = some 1 := by rw [hgd, hgr]; simp [List.getElem?_replicate, hk]
          rw [hval k 1 hone]
          have hne : ¬ (k : ℤ) ∈ mask := by
            intro hkm
            have h0 := hval k 1 hone
            rw [if_pos hkm] at h0
            rw [List.all_eq_true] at hall
            have := hall 0 (List.mem_of_getElem? h0)
            simp at this
          rw [if_neg hne]
          simp [List.getElem?_replicate, hk]
        · rw [List.getElem?_eq_none (by simp; omega), List.getElem?_eq_none (by rw [hl, hlen]; omega)]
      · rfl

/-! ## An instance -/

def toyInt (s : String) : Option ℤ := if s = "0" then some 0 else if s = "1" then some 1 else if s = "2" then some 2 else if s = "-1" then some (-1) else none

def row (n p s : String) : Line := ⟨[n, "10:00", "+20", "J2000", "20", "R", p, "1", s], false, false, false⟩

def file : List Line := [row "1" "0" "0", ⟨["#", "Selected", "Objects"], true, true, false⟩, ⟨[], false, false, false⟩, row "2" "1" "0", row "1" "-1" "0",
  ⟨["#", "Selected", "Guide"], true, false, true⟩, row "1" "1" "1"]

example : (match done toyInt (fun _ => .error .other) 3 false none file with
    | (.ok _, g) => decide (g = some [1, 0, 1])
    | _ => false) = true := by decide +kernel

example : (match done toyInt (fun _ => .error .other) 3 false (some [-1, 5, 2]) file with
    | (.ok _, g) => decide (g = some [-1, 0, 2])
    | _ => false) = true := by decide +kernel

end Verif.DoneTargets

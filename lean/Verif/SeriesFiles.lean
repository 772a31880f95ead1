import Verif.CioLocator
import Mathlib.Data.List.Basic
import Mathlib.Tactic.Linarith

/-!
# The files of the nutation and CIO series (astropysics/coords/coordsys.py 2307-2354, 2439-2480) (C203)

A file is its text.  Conversions of words to numbers (`int`, `float`) are parameters.
-/

namespace Verif.SeriesFiles

inductive Err
  | value
  | index
  /-- `polys` was never assigned -/
  | unbound
  deriving DecidableEq

abbrev Text := List Char

/-- `s.split(c)`. -/
def split (c : Char) : Text → List Text
  | [] => [[]]
  | x :: l => if x = c then [] :: split c l else
    match split c l with
    | [] => [[x]]
    | h :: t => (x :: h) :: t

/-- White space of a Python 2 string. -/
def isSpace (c : Char) : Bool := c = ' ' || c = '\t' || c = '\n' || c = '\r' || c = '\x0b' || c = '\x0c'

/-- `not l.startswith('#')` and `not l.strip()==''`, coordsys.py 2347, 2447. -/
def kept (l : Text) : Bool := (l.head? ≠ some '#') && !(l.all isSpace)

/-- The lines of a file that count. -/
def lines (text : Text) : List Text := (split '\n' text).filter kept

/-- C203: a line counts exactly if it has a character that is no white space and does not begin with '#'; the lines that count are kept in their order. -/
theorem lines_that_count (l : Text) :
    (kept l = true ↔ (∀ rest, l ≠ '#' :: rest) ∧ ∃ c ∈ l, c ≠ ' ' ∧ c ≠ '\t' ∧ c ≠ '\n' ∧ c ≠ '\r' ∧ c ≠ '\x0b' ∧ c ≠ '\x0c') ∧
    (∀ text, (lines text).Sublist (split '\n' text) ∧ (l ∈ lines text ↔ l ∈ split '\n' text ∧ kept l = true)) := by
  refine ⟨?_, fun text => ⟨List.filter_sublist, by simp [lines]⟩⟩
  have h1 : (l.head? ≠ some '#') ↔ ∀ rest, l ≠ '#' :: rest := by
    cases l with
    | nil => simp
    | cons a l => simp
  simp only [kept, Bool.and_eq_true, decide_eq_true_eq, Bool.not_eq_true', h1]
  refine and_congr Iff.rfl ?_
  rw [List.all_eq_false]
  refine exists_congr fun c => and_congr Iff.rfl ?_
  simp [isSpace, not_or, and_assoc]

/-! ## Nutation tables -/

/-- The words of one line from column `i` on: `lists[i].append(dtypes[i][1](e))`, coordsys.py 2350-2352. -/
def row {N : Type} (cols : ℕ) (conv : ℕ → Text → Option N) : ℕ → List Text → Except Err (List N)
  | _, [] => .ok []
  | i, w :: ws => if cols ≤ i then .error .index else
    match conv i w with
    | none => .error .value
    | some x => match row cols conv (i + 1) ws with
      | .error e => .error e
      | .ok r => .ok (x :: r)

/-- One line added to the columns. -/
def addRow {N : Type} (columns : List (List N)) (r : List N) : List (List N) :=
  columns.mapIdx fun i c => match r[i]? with
    | some x => c ++ [x]
    | none => c

/-- All lines, coordsys.py 2349-2352. -/
def rows {N : Type} (cols : ℕ) (conv : ℕ → Text → Option N) : List (List N) → List Text → Except Err (List (List N))
  | columns, [] => .ok columns
  | columns, l :: ls => match row cols conv 0 (split ' ' l) with
    | .error e => .error e
    | .ok r => rows cols conv (addRow columns r) ls

/-- `_load_nutation_data(datafn, seriestype)`, coordsys.py 2307-2354: 11 columns for luni-solar series, 17 for planetary ones; `np.rec.fromarrays`
wants columns of one length. -/
def loadNutation {N : Type} (lunisolar planetary : ℕ → Text → Option N) (seriestype : String) (text : Text) : Except Err (List (List N)) :=
  let load (cols : ℕ) (conv : ℕ → Text → Option N) : Except Err (List (List N)) :=
    match rows cols conv (List.replicate cols []) (lines text) with
    | .error e => .error e
    | .ok columns => if columns.all (fun c => c.length = (columns.headD []).length) then .ok columns else .error .value
  if seriestype = "lunisolar" then load 11 lunisolar
  else if seriestype = "planetary" then load 17 planetary
  else .error .value

/-! ### Specification: a table is a list of rows, one per line that counts. -/

/-- The line is a row of `cols` words separated by single spaces with these values. -/
def IsRow {N : Type} (cols : ℕ) (conv : ℕ → Text → Option N) (l : Text) (r : List N) : Prop :=
  (split ' ' l).length = cols ∧ r.length = cols ∧ ∀ i w x, (split ' ' l)[i]? = some w → r[i]? = some x → conv i w = some x

/-- Column `i` of rows. -/
def column {N : Type} (rs : List (List N)) (i : ℕ) : List N := rs.filterMap fun r => r[i]?

theorem row_ok {N : Type} (cols : ℕ) (conv : ℕ → Text → Option N) (ws : List Text) (i : ℕ) (r : List N) :
    row cols conv i ws = .ok r ↔ (ws = [] ∨ i + ws.length ≤ cols) ∧ r.length = ws.length ∧ ∀ j w x, ws[j]? = some w → r[j]? = some x → conv (i + j) w = some x := by
  induction ws generalizing i r with
  | nil =>
    simp only [row, Except.ok.injEq, List.length_nil, true_or, true_and, List.getElem?_nil]
    constructor
    · rintro rfl; simp
    · rintro ⟨h, -⟩; exact (List.length_eq_zero_iff.1 h).symm
  | cons w ws ih =>
    simp only [row]
    by_cases hc : cols ≤ i
    · simp only [hc, if_true, reduceCtorEq, false_iff]
      rintro ⟨h, -⟩
      rcases h with h | h
      · cases h
      · simp only [List.length_cons] at h; omega
    · simp only [hc, if_false]
      cases hw : conv i w with
      | none =>
        simp only [reduceCtorEq, false_iff]
        rintro ⟨-, hl, h⟩
        cases r with
        | nil => simp at hl
        | cons y r =>
          have := h 0 w y rfl rfl
          rw [Nat.add_zero, hw] at this
          cases this
      | some x =>
        simp only
        cases hr : row cols conv (i + 1) ws with
        | error e =>
          simp only [reduceCtorEq, false_iff]
          rintro ⟨hlen, hl, h⟩
          cases r with
          | nil => simp at hl
          | cons y r =>
            have : row cols conv (i + 1) ws = .ok r := by
              rw [ih]
              refine ⟨?_, by simpa using hl, fun j w' x' h1 h2 => ?_⟩
              · by_cases hws : ws = []
                · exact .inl hws
                · rcases hlen with h | h
                  · cases h
                  · right; simp only [List.length_cons] at h; omega
              · have := h (j + 1) w' x' (by simpa using h1) (by simpa using h2)
                rw [← this]; congr 1; omega
            rw [hr] at this; cases this
        | ok r' =>
          simp only [Except.ok.injEq]
          obtain ⟨h1, h2, h3⟩ := (ih (i + 1) r').1 hr
          constructor
          · rintro rfl
            refine ⟨.inr ?_, by simp [h2], ?_⟩
            · rcases h1 with rfl | h1
              · simp; omega
              · simp only [List.length_cons]; omega
            · intro j w' x' e1 e2
              cases j with
              | zero => simp only [List.getElem?_cons_zero, Option.some.injEq] at e1 e2; subst e1; subst e2; exact hw
              | succ j =>
                have := h3 j w' x' (by simpa using e1) (by simpa using e2)
                rw [← this]; congr 1; omega
          · rintro ⟨hlen, hl, h⟩
            cases r with
            | nil => simp at hl
            | cons y r =>
              have e0 := h 0 w y rfl rfl
              rw [Nat.add_zero, hw, Option.some.injEq] at e0
              subst e0
              congr 1
              have : row cols conv (i + 1) ws = .ok r := by
                rw [ih]
                refine ⟨h1, by simpa using hl, fun j w' x' e1 e2 => ?_⟩
                have := h (j + 1) w' x' (by simpa using e1) (by simpa using e2)
                rw [← this]; congr 1; omega
              rw [hr, Except.ok.injEq] at this
              exact this

theorem split_ne (c : Char) (l : Text) : split c l ≠ [] := by
  induction l with
  | nil => simp [split]
  | cons x l ih =>
    simp only [split]
    split_ifs
    · simp
    · split <;> simp

theorem addRow_col {N : Type} (columns : List (List N)) (r : List N) (i : ℕ) :
    (addRow columns r)[i]? = (columns[i]?).map fun c => c ++ (r[i]?).toList := by
  unfold addRow
  rw [List.getElem?_mapIdx]
  cases columns[i]? <;> simp
  cases r[i]? <;> simp

theorem rows_ok {N : Type} (cols : ℕ) (conv : ℕ → Text → Option N) (ls : List Text) (columns out : List (List N)) :
    rows cols conv columns ls = .ok out ↔ ∃ rs, List.Forall₂ (fun l r => row cols conv 0 (split ' ' l) = .ok r) ls rs ∧
      out = rs.foldl addRow columns := by
  induction ls generalizing columns with
  | nil =>
    simp only [rows, Except.ok.injEq, List.forall₂_nil_left_iff]
    constructor
    · rintro rfl; exact ⟨[], rfl, rfl⟩
    · rintro ⟨rs, rfl, rfl⟩; rfl
  | cons l ls ih =>
    simp only [rows]
    cases hr : row cols conv 0 (split ' ' l) with
    | error e =>
      simp only [reduceCtorEq, false_iff]
      rintro ⟨rs, h, -⟩
      cases h with
      | cons h _ => rw [hr] at h; cases h
    | ok r =>
      simp only
      rw [ih]
      constructor
      · rintro ⟨rs, h, rfl⟩
        exact ⟨r :: rs, .cons hr h, rfl⟩
      · rintro ⟨rs, h, rfl⟩
        cases h with
        | cons h1 h2 =>
          rw [hr, Except.ok.injEq] at h1
          subst h1
          exact ⟨_, h2, rfl⟩

theorem foldl_col {N : Type} (rs : List (List N)) (columns : List (List N)) (i : ℕ) :
    (rs.foldl addRow columns)[i]? = (columns[i]?).map fun c => c ++ column rs i := by
  induction rs generalizing columns with
  | nil => simp [column]
  | cons r rs ih =>
    rw [List.foldl_cons, ih, addRow_col, Option.map_map]
    congr 1
    funext c
    simp only [Function.comp, column, List.filterMap_cons]
    cases r[i]? <;> simp

theorem foldl_length {N : Type} (rs : List (List N)) (columns : List (List N)) : (rs.foldl addRow columns).length = columns.length := by
  induction rs generalizing columns with
  | nil => rfl
  | cons r rs ih => rw [List.foldl_cons, ih]; simp [addRow]

theorem column_length {N : Type} (rs : List (List N)) (i : ℕ) : (column rs i).length = (rs.filter fun r => decide (i < r.length)).length := by
  unfold column
  induction rs with
  | nil => rfl
  | cons r rs ih =>
    simp only [List.filterMap_cons, List.filter_cons]
    by_cases h : i < r.length
    · simp [List.getElem?_eq_getElem h, h, ih]
    · simp [List.getElem?_eq_none (Nat.le_of_not_lt h), h, ih]

theorem f2_right {A B : Type} {R : A → B → Prop} {P : B → Prop} (hR : ∀ a b, R a b → P b) {l : List A} {m : List B} (h : List.Forall₂ R l m) : ∀ b ∈ m, P b := by
  induction h with
  | nil => simp
  | cons a _ ih =>
    intro b hb
    rcases List.mem_cons.1 hb with rfl | hb
    · exact hR _ _ a
    · exact ih b hb

theorem f2_imp {A B : Type} {R Q : A → B → Prop} {l : List A} {m : List B} (h : List.Forall₂ R l m) : (∀ a b, b ∈ m → R a b → Q a b) → List.Forall₂ Q l m := by
  induction h with
  | nil => intro _; exact .nil
  | cons a _ ih => exact fun hR => .cons (hR _ _ List.mem_cons_self a) (ih fun a b hb => hR a b (List.mem_cons_of_mem _ hb))

/-- What the loader does for one kind of series. -/
theorem load_core {N : Type} (cols : ℕ) (hcols : 1 ≤ cols) (conv : ℕ → Text → Option N) (text : Text) (out : List (List N)) :
    (match rows cols conv (List.replicate cols []) (lines text) with
      | .error e => .error e
      | .ok columns => if columns.all (fun c => c.length = (columns.headD []).length) then .ok columns else .error .value) = (.ok out : Except Err _) ↔
    ∃ rs, List.Forall₂ (IsRow cols conv) (lines text) rs ∧ out = (List.range cols).map (column rs) := by
  generalize lines text = lns
  have hrow : ∀ l r, (row cols conv 0 (split ' ' l) = .ok r ∧ r.length = cols) ↔ IsRow cols conv l r := by
    intro l r
    rw [row_ok]
    have := split_ne ' ' l
    simp only [this, false_or, Nat.zero_add]
    unfold IsRow
    constructor
    · rintro ⟨⟨-, h2, h3⟩, h4⟩; exact ⟨by omega, h4, h3⟩
    · rintro ⟨h1, h2, h3⟩; exact ⟨⟨by omega, by omega, h3⟩, h2⟩
  have hout : ∀ rs : List (List N), rs.foldl addRow (List.replicate cols []) = (List.range cols).map (column rs) := by
    intro rs
    apply List.ext_getElem?
    intro i
    rw [foldl_col]
    by_cases hi : i < cols
    · simp [hi]
    · simp [Nat.le_of_not_lt hi]
  -- lengths agree exactly if all rows are full
  have hlen : ∀ rs : List (List N), (∀ r ∈ rs, r ≠ [] ∧ r.length ≤ cols) →
      (((List.range cols).map (column rs)).all (fun c => c.length = (((List.range cols).map (column rs)).headD []).length) = true ↔ ∀ r ∈ rs, r.length = cols) := by
    intro rs hrs
    have h0 : (((List.range cols).map (column rs)).headD []).length = rs.length := by
      obtain ⟨k, rfl⟩ : ∃ k, cols = k + 1 := ⟨cols - 1, by omega⟩
      rw [List.range_succ_eq_map]
      simp only [List.map_cons, List.headD_cons]
      rw [column_length, List.filter_eq_self.2]
      intro r hr
      have := (hrs r hr).1
      simpa using List.length_pos_iff.2 this
    rw [h0]
    simp only [List.all_map, List.all_eq_true, List.mem_range, Function.comp, decide_eq_true_eq]
    constructor
    · intro h r hr
      have h1 := h (cols - 1) (by omega)
      rw [column_length] at h1
      have h2 := List.length_filter_eq_length_iff.1 h1 r hr
      have := (hrs r hr).2
      simp only [decide_eq_true_eq] at h2
      omega
    · intro h i hi
      rw [column_length, List.filter_eq_self.2]
      intro r hr
      simp [h r hr, hi]
  have hprops : ∀ l r, row cols conv 0 (split ' ' l) = .ok r → r ≠ [] ∧ r.length ≤ cols := by
    intro l r h
    obtain ⟨h1, h2, -⟩ := (row_ok cols conv _ 0 r).1 h
    have := split_ne ' ' l
    simp only [this, false_or, Nat.zero_add] at h1
    have : 0 < (split ' ' l).length := List.length_pos_iff.2 this
    exact ⟨fun e => by rw [e] at h2; simp at h2; omega, by omega⟩
  have hall : ∀ rs, List.Forall₂ (fun l r => row cols conv 0 (split ' ' l) = .ok r) lns rs → ∀ r ∈ rs, r ≠ [] ∧ r.length ≤ cols := by
    intro rs h
    exact f2_right (fun l r h => hprops l r h) h
  cases hr : rows cols conv (List.replicate cols []) lns with
  | error e =>
    simp only [reduceCtorEq, false_iff]
    rintro ⟨rs, h, -⟩
    have : rows cols conv (List.replicate cols []) lns = .ok (rs.foldl addRow (List.replicate cols [])) :=
      (rows_ok cols conv _ _ _).2 ⟨rs, h.imp fun l r h => ((hrow l r).2 h).1, rfl⟩
    rw [hr] at this; cases this
  | ok columns =>
    obtain ⟨rs, h1, h2⟩ := (rows_ok cols conv _ _ _).1 hr
    rw [hout] at h2
    subst h2
    simp only
    have hL := hlen rs (hall rs h1)
    constructor
    · intro h
      split_ifs at h with hc
      simp only [Except.ok.injEq] at h
      refine ⟨rs, ?_, h.symm⟩
      have := hL.1 hc
      exact f2_imp h1 fun l r hr h => (hrow l r).1 ⟨h, this r hr⟩
    · rintro ⟨rs', h, rfl⟩
      have hh : rs.foldl addRow (List.replicate cols []) = rs'.foldl addRow (List.replicate cols []) := by
        have : rows cols conv (List.replicate cols []) lns = .ok (rs'.foldl addRow (List.replicate cols [])) :=
          (rows_ok cols conv _ _ _).2 ⟨rs', h.imp fun l r h => ((hrow l r).2 h).1, rfl⟩
        rw [hr, Except.ok.injEq] at this
        rw [hout, this]
      rw [hout, hout] at hh
      have hfull : ∀ r ∈ rs', r.length = cols := f2_right (fun l r h => h.2.1) h
      have hne : ∀ r ∈ rs', r ≠ [] ∧ r.length ≤ cols := fun r hr => ⟨fun e => by have := hfull r hr; rw [e] at this; simp at this; omega, (hfull r hr).le⟩
      rw [hh, if_pos ((hlen rs' hne).2 hfull)]

/-- C203: a nutation file is read exactly if every line that is no comment and not blank is a row of numbers separated by single spaces, eleven for a
luni-solar and seventeen for a planetary series; the result are the columns of these rows, in the order of the file.  Any other kind of series is a
ValueError. -/
theorem load_nutation_iff {N : Type} (conv convp : ℕ → Text → Option N) (text : Text) (out : List (List N)) :
    (loadNutation conv convp "lunisolar" text = .ok out ↔ ∃ rs, List.Forall₂ (IsRow 11 conv) (lines text) rs ∧ out = (List.range 11).map (column rs)) ∧
    (loadNutation conv convp "planetary" text = .ok out ↔ ∃ rs, List.Forall₂ (IsRow 17 convp) (lines text) rs ∧ out = (List.range 17).map (column rs)) ∧
    (∀ kind, kind ≠ "lunisolar" → kind ≠ "planetary" → loadNutation conv convp kind text = .error .value) := by
  refine ⟨?_, ?_, ?_⟩
  · rw [← load_core 11 (by omega)]; rfl
  · rw [← load_core 17 (by omega)]; rfl
  · intro kind h1 h2
    simp [loadNutation, h1, h2]

/-- Lines put together. -/
def join (c : Char) : List Text → Text
  | [] => []
  | [l] => l
  | l :: m :: ls => l ++ c :: join c (m :: ls)

theorem split_join (c : Char) (ls : List Text) (hne : ls ≠ []) (h : ∀ l ∈ ls, c ∉ l) : split c (join c ls) = ls := by
  have one : ∀ l : Text, c ∉ l → split c l = [l] := by
    intro l
    induction l with
    | nil => intro _; rfl
    | cons x l ih =>
      intro hl
      simp only [List.mem_cons, not_or] at hl
      simp [split, Ne.symm hl.1, ih hl.2]
  have app : ∀ (l : Text) (t : Text), c ∉ l → split c (l ++ c :: t) = l :: split c t := by
    intro l t
    induction l with
    | nil => intro _; simp [split]
    | cons x l ih =>
      intro hl
      simp only [List.mem_cons, not_or] at hl
      simp [split, Ne.symm hl.1, ih hl.2]
  match ls, hne with
  | [l], _ => exact one l (h l (by simp))
  | l :: m :: ls, _ =>
    rw [join, app l _ (h l (by simp)), split_join c (m :: ls) (by simp) fun x hx => h x (List.mem_cons_of_mem _ hx)]

/-- C203: only the lines that count matter: comments and blank lines can stand anywhere. -/
theorem comments_anywhere (ls ms : List Text) (hl : ls ≠ []) (hm : ms ≠ []) (h1 : ∀ l ∈ ls, '\n' ∉ l) (h2 : ∀ l ∈ ms, '\n' ∉ l)
    (h : ls.filter kept = ms.filter kept) : lines (join '\n' ls) = lines (join '\n' ms) := by
  unfold lines
  rw [split_join _ ls hl h1, split_join _ ms hm h2, h]

/-- An example: two rows, a comment and a blank line. -/
example : loadNutation (fun _ w => some w) (fun _ _ => none) "lunisolar" "#x y\n\n1 2 3 4 5 6 7 8 9 a b\n0 1 0 1 0 1 0 1 0 1 c\n".toList =
    .ok ([["1", "0"], ["2", "1"], ["3", "0"], ["4", "1"], ["5", "0"], ["6", "1"], ["7", "0"], ["8", "1"], ["9", "0"], ["a", "1"], ["b", "c"]].map
      fun c => c.map String.toList) := by
  rfl

/-! ## The file of the CIO locator -/

/-- `needle in l`. -/
def has (needle l : Text) : Bool := l.tails.any fun t => needle.isPrefixOf t

/-- `l.replace(needle,'')` for a needle that is not empty; fuel: the length of the line. -/
def remove (needle : Text) : ℕ → Text → Text
  | 0, l => l
  | n + 1, l => if needle.isPrefixOf l then remove needle n (l.drop needle.length) else
    match l with
    | [] => []
    | x :: l => x :: remove needle n l

/-- `l.split()`. -/
def words : Text → List Text
  | [] => []
  | x :: l => if isSpace x then words l else
    match l with
    | [] => [[x]]
    | y :: _ => if isSpace y then [x] :: words l else
      match words l with
      | [] => [[x]]
      | w :: ws => (x :: w) :: ws

def polyPhrase : Text := "Polynomial coefficients:".toList
def orderWord : Text := "order".toList

/-- All conversions of a list, or none. -/
def all? {A B : Type} (f : A → Option B) : List A → Option (List B)
  | [] => some []
  | a :: l => match f a, all? f l with
    | some b, some m => some (b :: m)
    | _, _ => none

/-- A row of words of the current order: `ls[:8]`, `ls[8]`, `ls[9]`. -/
structure Raw where
  n : List Text
  s : Text
  c : Text

/-- The three `np.array` of an order, coordsys.py 2459-2461, 2472-2474: words that are no numbers are ValueError. -/
def convert (int : Text → Option ℤ) (float : Text → Option ℚ) (o : List Raw) : Except Err (List CioLocator.CioTerm) :=
  match all? (fun r => match all? int r.n, float r.s, float r.c with
    | some n, some s, some c => some (⟨n, s, c⟩ : CioLocator.CioTerm)
    | _, _, _ => none) o with
  | some l => .ok l
  | none => .error .value

/-- The variables of the loop, coordsys.py 2448-2453. -/
structure State where
  polys : Option (List ℚ)
  current : List Raw
  orders : List (List CioLocator.CioTerm)
  inorder : Bool

/-- One line, coordsys.py 2454-2470. -/
def cioLine (int : Text → Option ℤ) (float : Text → Option ℚ) (st : State) (l : Text) : Except Err State :=
  if has polyPhrase l then
    match all? float (split ',' (remove polyPhrase l.length l)) with
    | some p => .ok { st with polys := some p }
    | none => .error .value
  else if has orderWord l then
    if st.inorder then
      match convert int float st.current with
      | .ok o => .ok { st with orders := st.orders ++ [o], current := [], inorder := true }
      | .error e => .error e
    else .ok { st with inorder := true }
  else if st.inorder then
    match (words l)[8]?, (words l)[9]? with
    | some s, some c => .ok { st with current := st.current ++ [⟨(words l).take 8, s, c⟩] }
    | _, _ => .error .index
  else .ok st

def cioLoop (int : Text → Option ℤ) (float : Text → Option ℚ) : State → List Text → Except Err State
  | st, [] => .ok st
  | st, l :: ls => match cioLine int float st l with
    | .error e => .error e
    | .ok st => cioLoop int float st ls

/-- `_load_CIO_locator_data`, coordsys.py 2439-2477. -/
def loadCio (int : Text → Option ℤ) (float : Text → Option ℚ) (text : Text) : Except Err (List ℚ × List (List CioLocator.CioTerm)) :=
  match cioLoop int float ⟨none, [], [], false⟩ (lines text) with
  | .error e => .error e
  | .ok st =>
    match (if st.inorder then (match convert int float st.current with
        | .ok o => .ok (st.orders ++ [o])
        | .error e => .error e) else (.ok st.orders : Except Err _)) with
    | .error e => .error e
    | .ok orders => match st.polys with
      | some p => .ok (p, orders)
      | none => .error .unbound

/-! ### Specification: a heading per order, then its terms. -/

/-- A block of a file: the heading of an order and the lines of its terms with what they say. -/
structure Block where
  heading : Text
  terms : List (Text × CioLocator.CioTerm)

/-- The line says the term: at least ten words, eight integers and two numbers (anything after them is ignored). -/
def Says (int : Text → Option ℤ) (float : Text → Option ℚ) (l : Text) (t : CioLocator.CioTerm) : Prop :=
  has polyPhrase l = false ∧ has orderWord l = false ∧ 10 ≤ (words l).length ∧ all? int ((words l).take 8) = some t.n ∧
  (∃ w, (words l)[8]? = some w ∧ float w = some t.s) ∧ (∃ w, (words l)[9]? = some w ∧ float w = some t.c)

def Block.Good (int : Text → Option ℤ) (float : Text → Option ℚ) (b : Block) : Prop :=
  has polyPhrase b.heading = false ∧ has orderWord b.heading = true ∧ ∀ p ∈ b.terms, Says int float p.1 p.2

/-- The lines of the blocks. -/
def Block.lines (b : Block) : List Text := b.heading :: b.terms.map Prod.fst

theorem cioLoop_append (int : Text → Option ℤ) (float : Text → Option ℚ) (ls ms : List Text) (st : State) :
    cioLoop int float st (ls ++ ms) = match cioLoop int float st ls with
      | .error e => .error e
      | .ok st => cioLoop int float st ms := by
  induction ls generalizing st with
  | nil => rfl
  | cons l ls ih =>
    simp only [List.cons_append, cioLoop]
    cases cioLine int float st l with
    | error e => rfl
    | ok st => exact ih st

/-- The words of a term line, as they are stored. -/
def raw (l : Text) : Raw := ⟨(words l).take 8, ((words l)[8]?).getD [], ((words l)[9]?).getD []⟩

theorem convert_says (int : Text → Option ℤ) (float : Text → Option ℚ) (ts : List (Text × CioLocator.CioTerm)) (h : ∀ p ∈ ts, Says int float p.1 p.2) :
    convert int float (ts.map fun p => raw p.1) = .ok (ts.map Prod.snd) := by
  have : all? (fun r : Raw => match all? int r.n, float r.s, float r.c with
    | some n, some s, some c => some (⟨n, s, c⟩ : CioLocator.CioTerm)
    | _, _, _ => none) (ts.map fun p => raw p.1) = some (ts.map Prod.snd) := by
    induction ts with
    | nil => rfl
    | cons p ts ih =>
      have hp := h p (by simp)
      obtain ⟨-, -, -, h3, ⟨w, h4, h4'⟩, ⟨v, h5, h5'⟩⟩ := hp
      simp only [List.map_cons, all?, raw, h3, h4, h5, Option.getD_some, h4', h5']
      rw [show (ts.map fun p => (⟨(words p.1).take 8, ((words p.1)[8]?).getD [], ((words p.1)[9]?).getD []⟩ : Raw)) = ts.map fun p => raw p.1 from rfl,
        ih fun q hq => h q (List.mem_cons_of_mem _ hq)]
  unfold convert
  rw [this]

theorem terms_loop (int : Text → Option ℤ) (float : Text → Option ℚ) (ts : List (Text × CioLocator.CioTerm)) (h : ∀ p ∈ ts, Says int float p.1 p.2)
    (st : State) (hi : st.inorder = true) :
    cioLoop int float st (ts.map Prod.fst) = .ok { st with current := st.current ++ ts.map fun p => raw p.1 } := by
  induction ts generalizing st with
  | nil => simp [cioLoop]
  | cons p ts ih =>
    obtain ⟨h1, h2, -, -, ⟨w, h4, -⟩, ⟨v, h5, -⟩⟩ := h p (by simp)
    simp only [List.map_cons, cioLoop, cioLine, h1, h2, Bool.false_eq_true, if_false, hi, if_true, h4, h5]
    have := ih (fun q hq => h q (List.mem_cons_of_mem _ hq)) { st with current := st.current ++ [⟨(words p.1).take 8, w, v⟩], inorder := true } rfl
    rw [this]
    simp [raw, h4, h5, hi]

theorem blocks_loop (int : Text → Option ℤ) (float : Text → Option ℚ) (bs : List Block) (h : ∀ b ∈ bs, b.Good int float) (st : State)
    (cur : List (Text × CioLocator.CioTerm)) (hcur : ∀ p ∈ cur, Says int float p.1 p.2) (hs : st.inorder = true) (hc : st.current = cur.map fun p => raw p.1) :
    ∃ st', cioLoop int float st (bs.flatMap Block.lines) = .ok st' ∧ st'.polys = st.polys ∧ st'.inorder = true ∧
      ∃ last : List (Text × CioLocator.CioTerm), (∀ p ∈ last, Says int float p.1 p.2) ∧ st'.current = last.map (fun p => raw p.1) ∧
        st'.orders ++ [last.map Prod.snd] = st.orders ++ cur.map Prod.snd :: bs.map fun b => b.terms.map Prod.snd := by
  induction bs generalizing st cur with
  | nil => exact ⟨st, by simp [cioLoop], rfl, hs, cur, hcur, hc, by simp⟩
  | cons b bs ih =>
    obtain ⟨h1, h2, h3⟩ := h b (by simp)
    have hconv := convert_says int float cur hcur
    have e1 : cioLine int float st b.heading = .ok { st with orders := st.orders ++ [cur.map Prod.snd], current := [], inorder := true } := by
      simp only [cioLine, h1, h2, Bool.false_eq_true, if_false, hs, if_true, hc, hconv]
    obtain ⟨st', h4, h5, h6, last, h7, h8, h9⟩ := ih (fun b hb => h b (List.mem_cons_of_mem _ hb))
      { st with orders := st.orders ++ [cur.map Prod.snd], current := b.terms.map (fun p => raw p.1), inorder := true } b.terms h3 rfl rfl
    refine ⟨st', ?_, h5, h6, last, h7, h8, ?_⟩
    · rw [List.flatMap_cons, cioLoop_append, Block.lines, cioLoop, e1]
      simp only
      rw [terms_loop int float b.terms h3 _ rfl]
      simpa using h4
    · rw [h9]; simp

/-- C203: a file with the line of the polynomial and then, for every order, a heading and its terms gives the polynomial and the terms of the orders, in
the order of the file; the terms before the first heading would be ignored. -/
theorem load_cio (int : Text → Option ℤ) (float : Text → Option ℚ) (polyLine : Text) (p : List ℚ) (before : List Text) (bs : List Block) (text : Text)
    (hp : has polyPhrase polyLine = true) (hpv : all? float (split ',' (remove polyPhrase polyLine.length polyLine)) = some p)
    (hbefore : ∀ l ∈ before, has polyPhrase l = false ∧ has orderWord l = false) (h : ∀ b ∈ bs, b.Good int float)
    (ht : lines text = polyLine :: (before ++ bs.flatMap Block.lines)) :
    loadCio int float text = .ok (p, bs.map fun b => b.terms.map Prod.snd) := by
  have hb : ∀ (st : State), st.inorder = false → cioLoop int float st before = .ok st := by
    intro st hst
    clear ht
    induction before with
    | nil => rfl
    | cons l ls ih =>
      have hl := hbefore l (by simp)
      simp only [cioLoop, cioLine, hl.1, hl.2, Bool.false_eq_true, if_false, hst]
      exact ih fun m hm => hbefore m (List.mem_cons_of_mem _ hm)
  unfold loadCio
  rw [ht, cioLoop, cioLine]
  simp only [hp, if_true, hpv]
  rw [cioLoop_append, hb _ rfl]
  simp only
  cases bs with
  | nil => simp [cioLoop]
  | cons b bs =>
    obtain ⟨h1, h2, h3⟩ := h b (by simp)
    have e1 : cioLine int float ⟨some p, [], [], false⟩ b.heading = .ok ⟨some p, [], [], true⟩ := by
      simp only [cioLine, h1, h2, Bool.false_eq_true, if_false, if_true]
    obtain ⟨st', h4, h5, h6, last, h7, h8, h9⟩ := blocks_loop int float bs (fun b hb => h b (List.mem_cons_of_mem _ hb))
      ⟨some p, b.terms.map (fun p => raw p.1), [], true⟩ b.terms h3 rfl rfl
    have e2 : cioLoop int float ⟨some p, [], [], false⟩ ((b :: bs).flatMap Block.lines) = .ok st' := by
      rw [List.flatMap_cons, cioLoop_append, Block.lines, cioLoop, e1]
      simp only
      rw [terms_loop int float b.terms h3 _ rfl]
      simpa using h4
    rw [e2]
    simp only [h6, if_true, h8, convert_says int float last h7, h9, h5]
    simp

/-- C203: a file without the line of the polynomial never loads: a NameError if all else is well. -/
theorem no_polynomial (int : Text → Option ℤ) (float : Text → Option ℚ) (text : Text) (h : ∀ l ∈ lines text, has polyPhrase l = false) :
    ∀ r, loadCio int float text ≠ .ok r := by
  have key : ∀ (ls : List Text) (st st' : State), (∀ l ∈ ls, has polyPhrase l = false) → cioLoop int float st ls = .ok st' → st'.polys = st.polys := by
    intro ls
    induction ls with
    | nil => intro st st' _ he; simp only [cioLoop, Except.ok.injEq] at he; rw [he]
    | cons l ls ih =>
      intro st st' hl he
      simp only [cioLoop] at he
      cases hc : cioLine int float st l with
      | error e => rw [hc] at he; cases he
      | ok st1 =>
        rw [hc] at he
        rw [ih st1 st' (fun m hm => hl m (List.mem_cons_of_mem _ hm)) he]
        simp only [cioLine, hl l (by simp), Bool.false_eq_true, if_false] at hc
        split_ifs at hc
        · cases hv : convert int float st.current with
          | error e => rw [hv] at hc; cases hc
          | ok o => rw [hv] at hc; simp only [Except.ok.injEq] at hc; rw [← hc]
        · simp only [Except.ok.injEq] at hc; rw [← hc]
        · cases h8 : (words l)[8]? with
          | none => rw [h8] at hc; cases hc
          | some s => cases h9 : (words l)[9]? with
            | none => rw [h8, h9] at hc; cases hc
            | some c => rw [h8, h9] at hc; simp only [Except.ok.injEq] at hc; rw [← hc]
        · simp only [Except.ok.injEq] at hc; rw [← hc]
  intro r hr
  unfold loadCio at hr
  cases hl : cioLoop int float ⟨none, [], [], false⟩ (lines text) with
  | error e => rw [hl] at hr; cases hr
  | ok st =>
    have := key _ _ _ h hl
    rw [hl] at hr
    simp only [this] at hr
    split at hr <;> cases hr

/-- An example with two orders; the comment between the terms and the words after the ten do no harm. -/
example : (match loadCio (fun w => if w = "1".toList then some 1 else some 0) (fun w => if w = "2".toList then some 2 else some 0)
    "Polynomial coefficients:2,0\n\n0th order:\n#0\n0 1 0 0 0  0 0 0  2 0  \n1st order\n1 0 0 0 0 0 0 1 0 2 7\n#c\n0 0 0 0 0 0 0 0 2 2".toList with
    | .ok r => decide (r = ([2, 0], [[⟨[0, 1, 0, 0, 0, 0, 0, 0], 2, 0⟩], [⟨[1, 0, 0, 0, 0, 0, 0, 1], 0, 2⟩, ⟨[0, 0, 0, 0, 0, 0, 0, 0], 2, 2⟩]]))
    | .error _ => false) = true := by
  decide +kernel

end Verif.SeriesFiles

import Mathlib.Data.Rat.Lemmas
import Mathlib.Data.List.Basic
import Verif.Kepler

/-!
# Tables of planets (astropysics/coords/ephems.py 1132-1166, 1184-1219) (C183)

`_load_jpl_orb_elems` and `_keplerian_ephems`.  A file is a list of lines, a line the list of its words (`l.strip().split()`); `float` is a parameter.  Dictionaries are lists
of pairs, of which the last with a key counts.
-/

namespace Verif.PlanetTables

inductive Err
  /-- a line of no words cannot be (the empty line is skipped) -/
  | index
  | value
  deriving DecidableEq

abbrev Line := List String

/-- `ls=='' or ls.startswith('#')`, ephems.py 1142. -/
def skipped : Line → Bool
  | [] => true
  | w :: _ => w.toList.head? = some '#'

/-- `while len(dat)<4: dat.append(0)`, ephems.py 1150-1151; every round adds one. -/
def pad {α : Type} (zero : α) : ℕ → List α → List α
  | 0, l => l
  | fuel + 1, l => if l.length < 4 then pad zero fuel (l ++ [zero]) else l

/-- One line, ephems.py 1143-1154: names and data after it. -/
def line (st : List String × List (List String)) (l : Line) : List String × List (List String) :=
  if skipped l then st
  else if 6 < l.length then (st.1 ++ [" ".intercalate (l.take (l.length - 6))], st.2 ++ [l.drop (l.length - 6)])
  else if l.length ≤ 5 then (st.1 ++ [l.headD ""], st.2 ++ [pad "0" 4 l.tail])
  else (st.1, st.2 ++ [l.drop (l.length - 6)])

/-- All lines, ephems.py 1139-1154. -/
def scan (ls : List Line) : List String × List (List String) := ls.foldl line ([], [])

/-- `mapM` for options. -/
def allSome {α β : Type} (f : α → Option β) : List α → Option (List β)
  | [] => some []
  | a :: l => match f a, allSome f l with
    | some b, some m => some (b :: m)
    | _, _ => none

/-- `np.array(data,dtype=float)`: all rows must have the same length, all words must be numbers. -/
def array {N : Type} (float : String → Option N) (d : List (List String)) : Except Err (List (List N)) :=
  match allSome (allSome float) d with
  | none => .error .value
  | some m => if m.all (fun r => decide (r.length = (m.headD []).length)) then .ok m else .error .value

/-- Rows in groups of `k`. -/
def groups {α : Type} (k : ℕ) : ℕ → List α → List (List α)
  | 0, _ => []
  | n + 1, l => l.take k :: groups k n (l.drop k)

/-- `np.split(arr,n)`: equal parts. -/
def split {α : Type} (l : List α) (n : ℕ) : Except Err (List (List α)) :=
  if n = 0 ∨ l.length % n ≠ 0 then .error .value else .ok (groups (l.length / n) n l)

/-- `_load_jpl_orb_elems`, ephems.py 1132-1156. -/
def load {N : Type} (float : String → Option N) (ls : List Line) : Except Err (List (String × List (List N))) :=
  match array float (scan ls).2 with
  | .error e => .error e
  | .ok m => match split m (scan ls).1.length with
    | .error e => .error e
    | .ok g => .ok ((scan ls).1.zip g)

/-! ## C183, the tables -/

/-- The lines of a table of planets with rates: some lines to skip, the name and six numbers, some lines to skip, six numbers. -/
inductive Table2 {N : Type} (float : String → Option N) : List Line → List (String × List (List N)) → Prop
  | nil (sk : List Line) : (∀ l ∈ sk, skipped l = true) → Table2 float sk []
  | cons (sk sk' : List Line) (name r1 r2 : List String) (v1 v2 : List N) (ls : List Line) (t : List (String × List (List N))) :
      (∀ l ∈ sk, skipped l = true) → (∀ l ∈ sk', skipped l = true) → name ≠ [] → skipped (name ++ r1) = false → skipped r2 = false →
      r1.length = 6 → r2.length = 6 → allSome float r1 = some v1 → allSome float r2 = some v2 → Table2 float ls t →
      Table2 float (sk ++ (name ++ r1) :: sk' ++ r2 :: ls) ((" ".intercalate name, [v1, v2]) :: t)

/-- The lines of a table of corrections: a name of one word and at most four numbers. -/
inductive Table1 {N : Type} (float : String → Option N) (zero : N) : List Line → List (String × List (List N)) → Prop
  | nil (sk : List Line) : (∀ l ∈ sk, skipped l = true) → Table1 float zero sk []
  | cons (sk : List Line) (name : String) (r : List String) (v : List N) (ls : List Line) (t : List (String × List (List N))) :
      (∀ l ∈ sk, skipped l = true) → skipped (name :: r) = false → r.length ≤ 4 → allSome float r = some v → Table1 float zero ls t →
      Table1 float zero (sk ++ (name :: r) :: ls) ((name, [v ++ List.replicate (4 - v.length) zero]) :: t)

theorem fold_skip (st : List String × List (List String)) : ∀ sk : List Line, (∀ l ∈ sk, skipped l = true) → sk.foldl line st = st
  | [], _ => rfl
  | l :: sk, h => by
    have : line st l = st := by unfold line; rw [if_pos (h l List.mem_cons_self)]
    rw [List.foldl_cons, this]
    exact fold_skip st sk fun m hm => h m (List.mem_cons_of_mem _ hm)

theorem allSome_length {α β : Type} (f : α → Option β) : ∀ (l : List α) (m : List β), allSome f l = some m → m.length = l.length
  | [], m, h => by simp [allSome] at h; simp [← h]
  | a :: l, m, h => by
    rw [allSome] at h
    cases h1 : f a with
    | none => simp [h1] at h
    | some b =>
      cases h2 : allSome f l with
      | none => simp [h1, h2] at h
      | some m' =>
        simp only [h1, h2, Option.some.injEq] at h
        subst h
        simp [allSome_length f l m' h2]

theorem allSome_cons {α β : Type} {f : α → Option β} {a : α} {b : β} {l : List α} {m : List β} (h1 : f a = some b) (h2 : allSome f l = some m) :
    allSome f (a :: l) = some (b :: m) := by
  rw [allSome, h1, h2]

theorem allSome_append {α β : Type} (f : α → Option β) : ∀ (l l' : List α) (m m' : List β), allSome f l = some m → allSome f l' = some m' → allSome f (l ++ l') = some (m ++ m')
  | [], l', m, m', h, h' => by
    simp only [allSome, Option.some.injEq] at h
    subst h
    simpa using h'
  | a :: l, l', m, m', h, h' => by
    rw [allSome] at h
    cases h1 : f a with
    | none => simp [h1] at h
    | some b =>
      cases h2 : allSome f l with
      | none => simp [h1, h2] at h
      | some n =>
        simp only [h1, h2, Option.some.injEq] at h
        subst h
        exact allSome_cons h1 (allSome_append f l l' n m' h2 h')

/-- Scanning from a state adds to it. -/
theorem fold_from (ls : List Line) : ∀ st : List String × List (List String), ls.foldl line st = (st.1 ++ (scan ls).1, st.2 ++ (scan ls).2) := by
  induction ls with
  | nil => intro st; simp [scan]
  | cons l ls ih =>
    intro st
    have e : ∀ st : List String × List (List String), line st l = (st.1 ++ (line ([], []) l).1, st.2 ++ (line ([], []) l).2) := by
      intro st
      unfold line
      split_ifs <;> simp
    unfold scan
    rw [List.foldl_cons, List.foldl_cons, ih (line st l), ih (line ([], []) l), e st]
    simp [List.append_assoc]

theorem scan_append (a b : List Line) : scan (a ++ b) = ((scan a).1 ++ (scan b).1, (scan a).2 ++ (scan b).2) := by
  unfold scan
  rw [List.foldl_append, fold_from]
  rfl

theorem scan_skip (sk : List Line) (h : ∀ l ∈ sk, skipped l = true) : scan sk = ([], []) := fold_skip _ sk h

theorem groups_append {α : Type} (k : ℕ) (x y : List α) (n : ℕ) (h : x.length = k) : groups k (n + 1) (x ++ y) = x :: groups k n y := by
  rw [groups]
  subst h
  simp

theorem pad_eq {α : Type} (z : α) : ∀ (fuel : ℕ) (l : List α), 4 ≤ l.length + fuel → pad z fuel l = l ++ List.replicate (4 - l.length) z
  | 0, l, h => by rw [pad]; have : 4 - l.length = 0 := by omega
                  simp [this]
  | fuel + 1, l, h => by
    rw [pad]
    split_ifs with h1
    · rw [pad_eq z fuel (l ++ [z]) (by simp; omega)]
      have : 4 - l.length = (4 - (l ++ [z]).length) + 1 := by simp; omega
      rw [this, List.replicate_succ]
      simp
    · have : 4 - l.length = 0 := by omega
      simp [this]

theorem table2_scan {N : Type} (float : String → Option N) {ls : List Line} {t : List (String × List (List N))} (h : Table2 float ls t) :
    (scan ls).1 = t.map (·.1) ∧ ∃ m, allSome (allSome float) (scan ls).2 = some m ∧ (∀ r ∈ m, r.length = 6) ∧ m.length = 2 * t.length ∧ groups 2 t.length m = t.map (·.2) := by
  induction h with
  | nil sk hsk => rw [scan_skip sk hsk]; exact ⟨rfl, [], rfl, by simp, rfl, rfl⟩
  | cons sk sk' name r1 r2 v1 v2 ls t hsk hsk' hn hs1 hs2 h1 h2 hv1 hv2 ht ih =>
    obtain ⟨a1, m, a2, a3, a4, a5⟩ := ih
    have e1 : scan [name ++ r1] = ([" ".intercalate name], [r1]) := by
      have hl : 6 < (name ++ r1).length := by
        have := List.length_pos_iff.2 hn
        rw [List.length_append]; omega
      have e : (name ++ r1).length - 6 = name.length := by rw [List.length_append]; omega
      simp only [scan, List.foldl_cons, List.foldl_nil]
      unfold line
      rw [if_neg (by simp [hs1]), if_pos hl, e]
      simp
    have e2 : scan [r2] = ([], [r2]) := by
      simp only [scan, List.foldl_cons, List.foldl_nil]
      unfold line
      rw [if_neg (by simp [hs2]), if_neg (by omega), if_neg (by omega)]
      simp [h2]
    have e3 : scan (sk ++ (name ++ r1) :: sk' ++ r2 :: ls) = ((" ".intercalate name) :: (scan ls).1, r1 :: r2 :: (scan ls).2) := by
      have : sk ++ (name ++ r1) :: sk' ++ r2 :: ls = sk ++ ([name ++ r1] ++ (sk' ++ ([r2] ++ ls))) := by simp
      rw [this, scan_append, scan_append, scan_append, scan_append, scan_skip sk hsk, scan_skip sk' hsk', e1, e2]
      simp
    rw [e3]
    refine ⟨by simp [a1], v1 :: v2 :: m, allSome_cons hv1 (allSome_cons hv2 a2), ?_, by simp [a4]; omega, ?_⟩
    · intro r hr
      rcases List.mem_cons.1 hr with rfl | hr
      · rw [allSome_length _ _ _ hv1, h1]
      · rcases List.mem_cons.1 hr with rfl | hr
        · rw [allSome_length _ _ _ hv2, h2]
        · exact a3 r hr
    · have := groups_append 2 [v1, v2] m t.length rfl
      rw [List.length_cons]
      simpa [a5] using this

/-- C183.  A table with rates is read as what it says, comments and empty lines anywhere: for each planet its name and its two rows of six numbers. -/
theorem elements_read {N : Type} (float : String → Option N) (ls : List Line) (t : List (String × List (List N))) (h : Table2 float ls t) (ht : t ≠ []) : load float ls = .ok t := by
  obtain ⟨a1, m, a2, a3, a4, a5⟩ := table2_scan float h
  have hpos : 0 < t.length := List.length_pos_iff.2 ht
  have harr : array float (scan ls).2 = .ok m := by
    unfold array
    rw [a2]
    dsimp only
    rw [if_pos]
    rw [List.all_eq_true]
    intro r hr
    have hm : m ≠ [] := by rintro rfl; simp at hr
    obtain ⟨x, m', rfl⟩ := List.exists_cons_of_ne_nil hm
    simp [a3 r hr, a3 x List.mem_cons_self]
  unfold load
  rw [harr]
  dsimp only
  unfold split
  rw [a1, List.length_map, a4, if_neg (by push Not; exact ⟨by omega, by simp⟩)]
  have : 2 * t.length / t.length = 2 := Nat.mul_div_cancel _ hpos
  rw [this, a5]
  dsimp only
  congr 1
  rw [List.zip_map']
  simp

theorem table1_scan {N : Type} (float : String → Option N) (zero : N) (hz : float "0" = some zero) {ls : List Line} {t : List (String × List (List N))} (h : Table1 float zero ls t) :
    (scan ls).1 = t.map (·.1) ∧ ∃ m, allSome (allSome float) (scan ls).2 = some m ∧ (∀ r ∈ m, r.length = 4) ∧ m.length = t.length ∧ groups 1 t.length m = t.map (·.2) := by
  induction h with
  | nil sk hsk => rw [scan_skip sk hsk]; exact ⟨rfl, [], rfl, by simp, rfl, rfl⟩
  | cons sk name r v ls t hsk hs h1 hv ht ih =>
    obtain ⟨a1, m, a2, a3, a4, a5⟩ := ih
    have hvl := allSome_length _ _ _ hv
    have e1 : scan [name :: r] = ([name], [r ++ List.replicate (4 - r.length) "0"]) := by
      simp only [scan, List.foldl_cons, List.foldl_nil]
      unfold line
      rw [if_neg (by simp [hs]), if_neg (by simp; omega), if_pos (by simp; omega), List.tail_cons, pad_eq _ _ _ (by omega)]
      simp
    have e3 : scan (sk ++ (name :: r) :: ls) = (name :: (scan ls).1, (r ++ List.replicate (4 - r.length) "0") :: (scan ls).2) := by
      have : sk ++ (name :: r) :: ls = sk ++ ([name :: r] ++ ls) := by simp
      rw [this, scan_append, scan_append, scan_skip sk hsk, e1]
      simp
    have hrep : ∀ n, allSome float (List.replicate n "0") = some (List.replicate n zero) := by
      intro n
      induction n with
      | zero => rfl
      | succ n ihn => rw [List.replicate_succ, List.replicate_succ]; exact allSome_cons hz ihn
    rw [e3]
    refine ⟨by simp [a1], (v ++ List.replicate (4 - v.length) zero) :: m, allSome_cons (allSome_append _ _ _ _ _ hv (by rw [hvl]; exact hrep _)) a2, ?_, by simp [a4], ?_⟩
    · intro q hq
      rcases List.mem_cons.1 hq with rfl | hq
      · simp; omega
      · exact a3 q hq
    · have := groups_append 1 [v ++ List.replicate (4 - v.length) zero] m t.length rfl
      rw [List.length_cons]
      simpa [a5] using this

/-- C183.  A table of corrections is read as what it says; missing numbers are 0. -/
theorem corrections_read {N : Type} (float : String → Option N) (zero : N) (hz : float "0" = some zero) (ls : List Line) (t : List (String × List (List N)))
    (h : Table1 float zero ls t) (ht : t ≠ []) : load float ls = .ok t := by
  obtain ⟨a1, m, a2, a3, a4, a5⟩ := table1_scan float zero hz h
  have hpos : 0 < t.length := List.length_pos_iff.2 ht
  have harr : array float (scan ls).2 = .ok m := by
    unfold array
    rw [a2]
    dsimp only
    rw [if_pos]
    rw [List.all_eq_true]
    intro r hr
    have hm : m ≠ [] := by rintro rfl; simp at hr
    obtain ⟨x, m', rfl⟩ := List.exists_cons_of_ne_nil hm
    simp [a3 r hr, a3 x List.mem_cons_self]
  unfold load
  rw [harr]
  dsimp only
  unfold split
  rw [a1, List.length_map, a4, if_neg (by push Not; exact ⟨by omega, by simp⟩)]
  rw [Nat.div_self hpos, a5]
  dsimp only
  congr 1
  rw [List.zip_map']
  simp

/-! ## The objects -/

/-- A planet: its name, the range of dates (years), the six elements (value and rate) and the hidden correction. -/
structure Planet (N : Type) where
  name : String
  years : ℤ × ℤ
  a : List N
  e : List N
  i : List N
  L : List N
  Lp : List N
  Lan : List N
  bcsf : Option (List N)
  deriving DecidableEq

/-- `zip(('a','e','i','L','Lp','Lan'),oes.T)` and the constructor, ephems.py 1204-1206 and 1213-1215; `none` if a column is missing (TypeError). -/
def planet {N : Type} (name : String) (years : ℤ × ℤ) (bcsf : Option (List N)) (oes : List (List N)) : Option (Planet N) :=
  match List.range 6 |>.map (fun j => oes.filterMap (·[j]?)) with
  | [a, e, i, l, lp, lan] => if oes.all (fun r => decide (6 ≤ r.length)) then some ⟨name, years, a, e, i, l, lp, lan, bcsf⟩ else none
  | _ => none

/-- The last value of a key. -/
def look {α : Type} (d : List (String × α)) (k : String) : Option α := (d.reverse.find? (fun p => p.1 = k)).map (·.2)

/-- `_keplerian_ephems`, ephems.py 1184-1219: `d[n]`.  Dates: 1800 to 2050 and 3000 BC to 3000 AD. -/
def ephems {N : Type} (short long longb : List (String × List (List N))) : List (String × Option (Planet N)) :=
  short.map (fun p => (p.1, planet p.1 (1800, 2050) none p.2)) ++
  long.map (fun p => (p.1 ++ "-long", planet (p.1 ++ "-long") (-2999, 3000) ((look longb (p.1 ++ "-long")).bind (·.head?)) p.2))

theorem look_mem {α : Type} (d : List (String × α)) (k : String) (v : α) (h : look d k = some v) : (k, v) ∈ d := by
  unfold look at h
  cases hf : d.reverse.find? (fun p => p.1 = k) with
  | none => simp [hf] at h
  | some p =>
    simp only [hf, Option.map_some, Option.some.injEq] at h
    have h1 := List.mem_of_find?_eq_some hf
    have h2 := List.find?_some hf
    simp only [decide_eq_true_eq] at h2
    rw [List.mem_reverse] at h1
    obtain ⟨a, b⟩ := p
    dsimp only at h h2
    subst h; subst h2
    exact h1

theorem look_of_mem {α : Type} (d : List (String × α)) (k : String) (v : α) (hn : (d.map (·.1)).Nodup) (h : (k, v) ∈ d) : look d k = some v := by
  have key : ∀ l : List (String × α), (l.map (·.1)).Nodup → (k, v) ∈ l → l.find? (fun p => p.1 = k) = some (k, v) := by
    intro l
    induction l with
    | nil => simp
    | cons a l ih =>
      intro hn h
      rw [List.map_cons, List.nodup_cons] at hn
      rcases List.mem_cons.1 h with rfl | h
      · simp
      · have : a.1 ≠ k := by rintro rfl; exact hn.1 (List.mem_map.2 ⟨_, h, rfl⟩)
        rw [List.find?_cons_of_neg (by simpa using this)]
        exact ih hn.2 h
  unfold look
  rw [key d.reverse (by rw [List.map_reverse]; exact List.nodup_reverse.2 hn) (List.mem_reverse.2 h)]
  rfl

/-- C183.  The objects are those of the two tables, the second ones with `-long`, each with its own rates: element j has the value and the rate in column j. -/
theorem objects_exact {N : Type} (short long longb : List (String × List (List N))) (n : String) (v1 v2 : List N) (h1 : v1.length = 6) (h2 : v2.length = 6)
    (hs : (short.map (·.1)).Nodup) (hl : (long.map (·.1)).Nodup) (hd : ∀ m ∈ long.map (·.1), m ++ "-long" ∉ short.map (·.1)) :
    ((n, [v1, v2]) ∈ short → ∃ p, look (ephems short long longb) n = some (some p) ∧ p.name = n ∧ p.years = (1800, 2050) ∧ p.bcsf = none ∧
      [p.a, p.e, p.i, p.L, p.Lp, p.Lan] = (v1.zip v2).map (fun x => [x.1, x.2])) ∧
    ((n, [v1, v2]) ∈ long → ∃ p, look (ephems short long longb) (n ++ "-long") = some (some p) ∧ p.name = n ++ "-long" ∧ p.years = (-2999, 3000) ∧
      p.bcsf = (look longb (n ++ "-long")).bind (·.head?) ∧ [p.a, p.e, p.i, p.L, p.Lp, p.Lan] = (v1.zip v2).map (fun x => [x.1, x.2])) := by
  match v1, h1 with
  | [a1, a2, a3, a4, a5, a6], _ =>
  match v2, h2 with
  | [b1, b2, b3, b4, b5, b6], _ =>
  have hnod : ((ephems short long longb).map (·.1)).Nodup := by
    unfold ephems
    rw [List.map_append, List.map_map, List.map_map]
    rw [List.nodup_append]
    refine ⟨by simpa [Function.comp_def] using hs, ?_, ?_⟩
    · have : (long.map ((fun x : String × Option (Planet N) => x.1) ∘ fun p => (p.1 ++ "-long", planet (p.1 ++ "-long") (-2999, 3000) ((look longb (p.1 ++ "-long")).bind (·.head?)) p.2))) =
          (long.map (·.1)).map (· ++ "-long") := by simp [Function.comp_def]
      rw [this]
      refine hl.map ?_
      intro x y hxy
      have := congrArg String.toList hxy
      simp only [String.toList_append] at this
      exact String.toList_inj.1 (List.append_cancel_right this)
    · intro a ha b hb hab
      subst hab
      simp only [List.mem_map, Function.comp] at ha hb
      obtain ⟨p, hp, rfl⟩ := ha
      obtain ⟨q, hq, e⟩ := hb
      exact hd q.1 (List.mem_map.2 ⟨q, hq, rfl⟩) (List.mem_map.2 ⟨p, hp, e.symm⟩)
  constructor
  · intro h
    refine ⟨⟨n, (1800, 2050), [a1, b1], [a2, b2], [a3, b3], [a4, b4], [a5, b5], [a6, b6], none⟩, look_of_mem _ _ _ hnod ?_, rfl, rfl, rfl, rfl⟩
    exact List.mem_append_left _ (List.mem_map.2 ⟨_, h, rfl⟩)
  · intro h
    refine ⟨⟨n ++ "-long", (-2999, 3000), [a1, b1], [a2, b2], [a3, b3], [a4, b4], [a5, b5], [a6, b6], (look longb (n ++ "-long")).bind (·.head?)⟩,
      look_of_mem _ _ _ hnod ?_, rfl, rfl, rfl, rfl⟩
    exact List.mem_append_right _ (List.mem_map.2 ⟨_, h, rfl⟩)

/-- C183.  Defect: a correction is looked up under the name with `-long`, so that no object has one unless the table of corrections uses such names. -/
theorem correction_never {N : Type} (short long longb : List (String × List (List N))) (hb : ∀ q ∈ longb, ∀ m, q.1 ≠ m ++ "-long") (k : String) (p : Planet N)
    (h : look (ephems short long longb) k = some (some p)) : p.bcsf = none := by
  have hm := look_mem _ _ _ h
  unfold ephems at hm
  have hp : ∀ (name : String) (y : ℤ × ℤ) (b : Option (List N)) (o : List (List N)), planet name y b o = some p → p.bcsf = b := by
    intro name y b o hh
    unfold planet at hh
    split at hh
    · split_ifs at hh
      simp only [Option.some.injEq] at hh
      rw [← hh]
    · simp at hh
  rcases List.mem_append.1 hm with hm | hm
  · obtain ⟨q, _, e⟩ := List.mem_map.1 hm
    simp only [Prod.mk.injEq] at e
    exact hp _ _ _ _ e.2
  · obtain ⟨q, _, e⟩ := List.mem_map.1 hm
    simp only [Prod.mk.injEq] at e
    rw [hp _ _ _ _ e.2]
    cases hl : look longb (q.1 ++ "-long") with
    | none => rfl
    | some w => exact absurd rfl (hb _ (look_mem _ _ _ hl) q.1)

/-- C183.  The names in the table of corrections of the package: none is found, the mean anomaly of Jupiter-long is L - Lp. -/
theorem package_corrections (o : Kepler.Orbit) (l lp : ℝ → ℝ) (T : ℝ) (short long : List (String × List (List ℝ))) (rows : List (List (List ℝ))) (k : String) (p : Planet ℝ)
    (h : look (ephems short long (["Jupiter", "Saturn", "Uranus", "Neptune", "Pluto"].zip rows)) k = some (some p)) (ha : o.angles = .longitudes l lp)
    (hb : o.bcsf = p.bcsf.bind fun r => if h : r.length = 4 then some (r[0], r[1], r[2], r[3]) else none) : o.M T = .ok (l T - lp T) := by
  have hnone := correction_never short long _ ?_ k p h
  · rw [hnone] at hb
    unfold Kepler.Orbit.M
    rw [ha, hb]
    rfl
  · intro q hq m e
    have hq1 : q.1 ∈ ["Jupiter", "Saturn", "Uranus", "Neptune", "Pluto"] := (List.of_mem_zip hq).1
    rw [e] at hq1
    have hg : ∀ s ∈ ["Jupiter", "Saturn", "Uranus", "Neptune", "Pluto"], s.toList.getLast? ≠ some 'g' := by decide
    apply hg _ hq1
    rw [String.toList_append, List.getLast?_append]
    rfl

/-- Numbers of one digit. -/
def digit (w : String) : Option ℕ := match w.toList with
  | [c] => if c.isDigit then some (c.toNat - 48) else none
  | _ => none

/-- A file in the manner of the package. -/
theorem example_file : load digit [["#", "a", "e"], ["EM", "Bary", "1", "2", "3", "4", "5", "6"], ["7", "8", "9", "1", "1", "1"], [], ["Mars", "1", "1", "1", "1", "1", "1"],
      ["#----"], ["2", "2", "2", "2", "2", "2"]] =
    .ok [("EM Bary", [[1, 2, 3, 4, 5, 6], [7, 8, 9, 1, 1, 1]]), ("Mars", [[1, 1, 1, 1, 1, 1], [2, 2, 2, 2, 2, 2]])] ∧
    load digit [["Jupiter", "1", "2", "3", "4"], ["Pluto", "5"]] = .ok [("Jupiter", [[1, 2, 3, 4]]), ("Pluto", [[5, 0, 0, 0]])] := by
  decide +kernel

end Verif.PlanetTables

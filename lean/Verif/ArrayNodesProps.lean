import Verif.ArrayNodes
import Mathlib.Data.List.Nodup
import Mathlib.Tactic.SplitIfs

/-!
# C135: values from an array arrive in the right nodes
-/

namespace Verif.ArrayNodes

variable {V W : Type}

/-! ## Specification -/

/-- A field after a value from `src` was stored: it comes first (`setcurr`), else it takes the place of the value with that
source or comes last; everything else stays in order. -/
def Stored (setcurr : Bool) (src : String) (v : W) (old new : List (String × W)) : Prop :=
  if setcurr then new = (src, v) :: old.eraseP (fun x => x.1 = src)
  else (∃ a x b, old = a ++ x :: b ∧ (∀ y ∈ a, y.1 ≠ src) ∧ x.1 = src ∧ new = a ++ (src, v) :: b) ∨
    ((∀ y ∈ old, y.1 ≠ src) ∧ new = old ++ [(src, v)])

/-- The values a field had before; a field that is added is empty. -/
def before (st : Store W) (n : Nat) (f : String) : List (String × W) := if f ∈ st.names n then st.vals n f else []

/-- Column `c` is the one stored in field `f`: of several columns for one field the last. -/
def LastCol (inp : Input V W) (f : String) (c : Nat) : Prop :=
  c < inp.ncols ∧ fieldOf inp c = some f ∧ ∀ d, c < d → d < inp.ncols → fieldOf inp d ≠ some f

/-- Row `i` is stored in node `n`, and what was not addressed is as before. -/
def HoldsRow (inp : Input V W) (cell : Nat → Nat → W) (st st' : Store W) (n i : Nat) : Prop :=
  (∀ f c, LastCol inp f c → Stored inp.setcurr inp.src (cell c i) (before st n f) (st'.vals n f)) ∧
  (∀ f, (∀ c < inp.ncols, fieldOf inp c ≠ some f) → st'.vals n f = st.vals n f) ∧
  (∀ f, f ∈ st'.names n ↔ f ∈ st.names n ∨ ∃ c < inp.ncols, fieldOf inp c = some f)

/-- The node is as it was. -/
def Untouched (st st' : Store W) (n : Nat) : Prop := st'.names n = st.names n ∧ ∀ f, st'.vals n f = st.vals n f

/-- All values can be computed. -/
def Cells (inp : Input V W) (cell : Nat → Nat → W) : Prop :=
  ∀ c < inp.ncols, ∀ i < inp.nrows, fieldOf inp c ≠ none → cellOf inp c i = .ok (cell c i)

/-! ## One field -/

theorem put_stored (src : String) (v : W) : ∀ l : List (String × W), Stored false src v l (put src v l) := by
  intro l
  simp only [Stored, Bool.false_eq_true, if_false]
  induction l with
  | nil => exact .inr ⟨by simp, rfl⟩
  | cons x l ih =>
    by_cases h : x.1 = src
    · exact .inl ⟨[], x, l, rfl, by simp, h, by simp [put, h]⟩
    · rcases ih with ⟨a, y, b, e1, e2, e3, e4⟩ | ⟨e1, e2⟩
      · refine .inl ⟨x :: a, y, b, by simp [e1], ?_, e3, by simp only [put, h, if_false, e4]; simp⟩
        intro z hz
        rcases List.mem_cons.mp hz with rfl | hz
        · exact h
        · exact e2 z hz
      · refine .inr ⟨?_, by simp only [put, h, if_false, e2]; simp⟩
        intro z hz
        rcases List.mem_cons.mp hz with rfl | hz
        · exact h
        · exact e1 z hz

theorem front_put (src : String) (v : W) : ∀ l : List (String × W),
    front src (put src v l) = (src, v) :: l.eraseP (fun x => x.1 = src) := by
  intro l
  have hf : (put src v l).find? (fun x => x.1 = src) = some (src, v) := by
    induction l with
    | nil => simp [put]
    | cons x l ih =>
      by_cases h : x.1 = src
      · simp [put, h]
      · simp only [put, h, if_false, List.find?_cons]
        simpa using ih
  have he : (put src v l).eraseP (fun x => x.1 = src) = l.eraseP (fun x => x.1 = src) := by
    clear hf
    induction l with
    | nil => simp [put]
    | cons x l ih =>
      by_cases h : x.1 = src
      · simp [put, h]
      · simp only [put, h, if_false]
        rw [List.eraseP_cons_of_neg (by simpa using h), List.eraseP_cons_of_neg (by simpa using h), ih]
  simp [front, hf, he]

theorem putCell_stored (b : Bool) (src : String) (v : W) (l : List (String × W)) : Stored b src v l (putCell b src v l) := by
  cases b with
  | false => exact put_stored src v l
  | true => simp [Stored, putCell, front_put]

theorem put_put (src : String) (v w : W) : ∀ l : List (String × W), put src v (put src w l) = put src v l := by
  intro l
  induction l with
  | nil => simp [put]
  | cons x l ih =>
    by_cases h : x.1 = src
    · simp [put, h]
    · simp [put, h, ih]

theorem putCell_over (b : Bool) (src : String) (v w : W) (l : List (String × W)) :
    putCell b src v (putCell b src w l) = putCell b src v l := by
  cases b with
  | false => exact put_put src v w l
  | true => simp [putCell, front_put]

/-! ## One row -/

/-- The last column of a list that is stored in `f`. -/
def lastCol (inp : Input V W) (f : String) : List Nat → Option Nat
  | [] => none
  | c :: cs => (lastCol inp f cs).or (if fieldOf inp c = some f then some c else none)

/-- What becomes of a field when a row is written. -/
def after (inp : Input V W) (cell : Nat → Nat → W) (i : Nat) (old : List (String × W)) : Option Nat → List (String × W)
  | some c => putCell inp.setcurr inp.src (cell c i) old
  | none => old

theorem writeCells_spec (inp : Input V W) (cell : Nat → Nat → W) (n i : Nat) : ∀ (cs : List Nat) (st : Store W),
    (∀ c ∈ cs, fieldOf inp c ≠ none → cellOf inp c i = .ok (cell c i)) →
    (writeCells inp n i cs st).2 = .ok () ∧ (writeCells inp n i cs st).1.names = st.names ∧
    (∀ m, m ≠ n → (writeCells inp n i cs st).1.vals m = st.vals m) ∧
    (∀ f, (writeCells inp n i cs st).1.vals n f = after inp cell i (st.vals n f) (lastCol inp f cs)) := by
  intro cs
  induction cs with
  | nil => intro st _; exact ⟨rfl, rfl, fun _ _ => rfl, fun _ => rfl⟩
  | cons c cs ih =>
    intro st h
    have h' : ∀ d ∈ cs, fieldOf inp d ≠ none → cellOf inp d i = .ok (cell d i) := fun d hd => h d (List.mem_cons_of_mem _ hd)
    simp only [writeCells]
    cases hf : fieldOf inp c with
    | none =>
      obtain ⟨a, b, e, g⟩ := ih st h'
      refine ⟨a, b, e, fun f => ?_⟩
      rw [g f]
      simp [lastCol, hf]
    | some f0 =>
      simp only
      rw [h c (by simp) (by simp [hf])]
      simp only
      obtain ⟨a, b, e, g⟩ := ih (st.set n f0 (putCell inp.setcurr inp.src (cell c i) (st.vals n f0))) h'
      refine ⟨a, b, fun m hm => ?_, fun f => ?_⟩
      · rw [e m hm]
        funext x
        simp [Store.set, hm]
      · rw [g f]
        by_cases hff : f = f0
        · subst hff
          simp only [lastCol, hf, if_true, Store.set, and_self]
          cases lastCol inp f cs with
          | none => rfl
          | some d => simp [after, putCell_over]
        · have : ¬ (some f0 = some f) := by simpa using fun h => hff h.symm
          simp only [lastCol, hf, this, if_false, Option.or_none, Store.set, hff, and_false]

theorem addNames_spec (inp : Input V W) (n : Nat) : ∀ (cs : List Nat) (st : Store W),
    (∀ m, m ≠ n → (addNames inp n cs st).names m = st.names m ∧ (addNames inp n cs st).vals m = st.vals m) ∧
    (∀ f, f ∈ (addNames inp n cs st).names n ↔ f ∈ st.names n ∨ ∃ c ∈ cs, fieldOf inp c = some f) ∧
    (∀ f, (addNames inp n cs st).vals n f =
      if f ∉ st.names n ∧ ∃ c ∈ cs, fieldOf inp c = some f then [] else st.vals n f) := by
  intro cs
  induction cs with
  | nil => intro st; exact ⟨fun _ _ => ⟨rfl, rfl⟩, fun f => by simp [addNames], fun f => by simp [addNames]⟩
  | cons c cs ih =>
    intro st
    simp only [addNames]
    cases hf : fieldOf inp c with
    | none =>
      obtain ⟨a, b, g⟩ := ih st
      refine ⟨a, fun f => ?_, fun f => ?_⟩
      · rw [b f]; simp [hf]
      · rw [g f]; simp [hf]
    | some f0 =>
      simp only
      by_cases hm : f0 ∈ st.names n
      · simp only [hm, if_true]
        obtain ⟨a, b, g⟩ := ih st
        refine ⟨a, fun f => ?_, fun f => ?_⟩
        · rw [b f]
          simp only [List.mem_cons, exists_eq_or_imp, hf, Option.some.injEq]
          constructor
          · rintro (h | h)
            · exact .inl h
            · exact .inr (.inr h)
          · rintro (h | h | h)
            · exact .inl h
            · exact .inl (h ▸ hm)
            · exact .inr h
        · rw [g f]
          simp only [List.mem_cons, exists_eq_or_imp, hf, Option.some.injEq]
          by_cases hfn : f ∈ st.names n
          · simp [hfn]
          · have : f0 ≠ f := fun e => hfn (e ▸ hm)
            simp [this]
      · simp only [hm, if_false]
        obtain ⟨a, b, g⟩ := ih ⟨fun m => if m = n then st.names n ++ [f0] else st.names m,
            fun m g => if m = n ∧ g = f0 then [] else st.vals m g⟩
        refine ⟨fun m hmn => ?_, fun f => ?_, fun f => ?_⟩
        · obtain ⟨x, y⟩ := a m hmn
          rw [x, y]
          refine ⟨by simp [hmn], ?_⟩
          funext z; simp [hmn]
        · rw [b f]
          simp only [if_true, List.mem_append, List.mem_cons, List.not_mem_nil, or_false, exists_eq_or_imp, hf,
            Option.some.injEq]
          constructor
          · rintro ((h | h) | h)
            · exact .inl h
            · exact .inr (.inl h.symm)
            · exact .inr (.inr h)
          · rintro (h | h | h)
            · exact .inl (.inl h)
            · exact .inl (.inr h.symm)
            · exact .inr h
        · rw [g f]
          simp only [if_true, List.mem_append, List.mem_cons, List.not_mem_nil, or_false, exists_eq_or_imp, hf,
            Option.some.injEq, true_and]
          by_cases hff : f = f0
          · subst hff; simp [hm]
          · have h2 : f0 ≠ f := fun e => hff e.symm
            simp [hff, h2]

theorem lastCol_none {inp : Input V W} {f : String} : ∀ {cs : List Nat},
    lastCol inp f cs = none ↔ ∀ c ∈ cs, fieldOf inp c ≠ some f := by
  intro cs
  induction cs with
  | nil => simp [lastCol]
  | cons c cs ih =>
    simp only [lastCol, Option.or_eq_none_iff, ih, List.mem_cons, forall_eq_or_imp]
    constructor
    · rintro ⟨a, b⟩
      refine ⟨?_, a⟩
      intro h; simp [h] at b
    · rintro ⟨a, b⟩
      exact ⟨b, by simp [a]⟩

theorem lastCol_some {inp : Input V W} {f : String} : ∀ {cs : List Nat}, cs.Pairwise (· < ·) → ∀ {c : Nat},
    c ∈ cs → fieldOf inp c = some f → (∀ d ∈ cs, c < d → fieldOf inp d ≠ some f) → lastCol inp f cs = some c := by
  intro cs
  induction cs with
  | nil => intro _ c h; simp at h
  | cons d cs ih =>
    intro hp c hc hf hl
    obtain ⟨h1, h2⟩ := List.pairwise_cons.mp hp
    rcases List.mem_cons.mp hc with rfl | hc
    · have : lastCol inp f cs = none := lastCol_none.mpr (fun e he => hl e (List.mem_cons_of_mem _ he) (h1 e he))
      simp [lastCol, this, hf]
    · simp [lastCol, ih h2 hc hf (fun e he => hl e (List.mem_cons_of_mem _ he))]

theorem lastCol_range {inp : Input V W} {f : String} {c : Nat} (h : LastCol inp f c) :
    lastCol inp f (List.range inp.ncols) = some c :=
  lastCol_some List.pairwise_lt_range (List.mem_range.mpr h.1) h.2.1
    (fun d hd hcd => h.2.2 d hcd (List.mem_range.mp hd))

theorem lastCol_mem {inp : Input V W} {f : String} : ∀ {cs : List Nat} {c : Nat}, lastCol inp f cs = some c →
    c ∈ cs ∧ fieldOf inp c = some f := by
  intro cs
  induction cs with
  | nil => intro c h; simp [lastCol] at h
  | cons d cs ih =>
    intro c h
    simp only [lastCol] at h
    cases hl : lastCol inp f cs with
    | some e =>
      rw [hl] at h
      simp only [Option.some_or, Option.some.injEq] at h
      subst h
      exact ⟨List.mem_cons_of_mem _ (ih hl).1, (ih hl).2⟩
    | none =>
      rw [hl] at h
      simp only [Option.none_or, Option.ite_none_right_eq_some, Option.some.injEq] at h
      obtain ⟨h1, rfl⟩ := h
      exact ⟨by simp, h1⟩

/-- The columns that are stored in `f`. -/
def Col (inp : Input V W) (f : String) : Prop := ∃ c ∈ List.range inp.ncols, fieldOf inp c = some f

theorem writeRow_spec (inp : Input V W) (cell : Nat → Nat → W) (n i : Nat) (st : Store W)
    (h : ∀ c < inp.ncols, fieldOf inp c ≠ none → cellOf inp c i = .ok (cell c i)) :
    (writeRow inp n i st).2 = .ok () ∧
    (∀ m, m ≠ n → Untouched st (writeRow inp n i st).1 m) ∧
    (∀ f, f ∈ (writeRow inp n i st).1.names n ↔ f ∈ st.names n ∨ Col inp f) ∧
    (∀ f, (writeRow inp n i st).1.vals n f = match lastCol inp f (List.range inp.ncols) with
      | some c => putCell inp.setcurr inp.src (cell c i) (before st n f)
      | none => st.vals n f) := by
  obtain ⟨a1, a2, a3⟩ := addNames_spec inp n (List.range inp.ncols) st
  obtain ⟨b1, b2, b3, b4⟩ := writeCells_spec inp cell n i (List.range inp.ncols) (addNames inp n (List.range inp.ncols) st)
    (fun c hc => h c (List.mem_range.mp hc))
  refine ⟨b1, fun m hm => ⟨?_, fun f => ?_⟩, fun f => ?_, fun f => ?_⟩
  · show (writeCells inp n i _ _).1.names m = _
    rw [b2, (a1 m hm).1]
  · show (writeCells inp n i _ _).1.vals m f = _
    rw [b3 m hm, (a1 m hm).2]
  · show f ∈ (writeCells inp n i _ _).1.names n ↔ _
    rw [b2, a2 f]; rfl
  · show (writeCells inp n i _ _).1.vals n f = _
    rw [b4 f, a3 f]
    cases hl : lastCol inp f (List.range inp.ncols) with
    | some c =>
      have hc : ∃ c ∈ List.range inp.ncols, fieldOf inp c = some f := ⟨c, lastCol_mem hl⟩
      simp only [after, before]
      by_cases hm : f ∈ st.names n
      · simp [hm]
      · rw [if_pos ⟨hm, hc⟩, if_neg hm]
    | none =>
      have hc : ¬ ∃ c ∈ List.range inp.ncols, fieldOf inp c = some f := by
        rintro ⟨c, hc, hf⟩
        exact lastCol_none.mp hl c hc hf
      simp only [after]
      rw [if_neg (fun h => hc h.2)]

theorem writeRow_holds {inp : Input V W} {cell : Nat → Nat → W} {n i : Nat} {st : Store W}
    (h : ∀ c < inp.ncols, fieldOf inp c ≠ none → cellOf inp c i = .ok (cell c i)) :
    HoldsRow inp cell st (writeRow inp n i st).1 n i := by
  obtain ⟨_, _, c3, c4⟩ := writeRow_spec inp cell n i st h
  refine ⟨fun f c hl => ?_, fun f hf => ?_, fun f => ?_⟩
  · rw [c4 f, lastCol_range hl]
    exact putCell_stored _ _ _ _
  · rw [c4 f, lastCol_none.mpr (fun c hc => hf c (List.mem_range.mp hc))]
  · rw [c3 f]
    simp [Col]


/-! ## Several rows -/

/-- The rows are written to the nodes of a list of (node, row). -/
def writes (inp : Input V W) : List (Nat × Nat) → Store W → Store W × Except Exc Unit
  | [], st => (st, .ok ())
  | (n, i) :: ps, st => match writeRow inp n i st with
    | (st1, .error x) => (st1, .error x)
    | (st1, .ok _) => writes inp ps st1

/-- The last row written to a node. -/
def lastRow (n : Nat) : List (Nat × Nat) → Option Nat
  | [] => none
  | (m, i) :: ps => (lastRow n ps).or (if m = n then some i else none)

theorem holds_trans {inp : Input V W} {cell : Nat → Nat → W} {n i j : Nat} {st st1 st2 : Store W}
    (h1 : ∀ f, f ∈ st1.names n ↔ f ∈ st.names n ∨ Col inp f)
    (h2 : ∀ f, st1.vals n f = match lastCol inp f (List.range inp.ncols) with
      | some c => putCell inp.setcurr inp.src (cell c i) (before st n f)
      | none => st.vals n f)
    (h3 : ∀ f, f ∈ st2.names n ↔ f ∈ st1.names n ∨ Col inp f)
    (h4 : ∀ f, st2.vals n f = match lastCol inp f (List.range inp.ncols) with
      | some c => putCell inp.setcurr inp.src (cell c j) (before st1 n f)
      | none => st1.vals n f) :
    (∀ f, f ∈ st2.names n ↔ f ∈ st.names n ∨ Col inp f) ∧
    (∀ f, st2.vals n f = match lastCol inp f (List.range inp.ncols) with
      | some c => putCell inp.setcurr inp.src (cell c j) (before st n f)
      | none => st.vals n f) := by
  refine ⟨fun f => by rw [h3, h1]; exact ⟨fun h => h.elim id .inr, fun h => .inl h⟩, fun f => ?_⟩
  rw [h4 f]
  cases hl : lastCol inp f (List.range inp.ncols) with
  | none => simp only; rw [h2 f, hl]
  | some c =>
    simp only
    have hm : f ∈ st1.names n := (h1 f).mpr (.inr ⟨c, lastCol_mem hl⟩)
    have hb : before st1 n f = putCell inp.setcurr inp.src (cell c i) (before st n f) := by
      simp only [before, hm, if_true]
      rw [h2 f, hl]
      rfl
    rw [hb, putCell_over]

theorem writes_spec (inp : Input V W) (cell : Nat → Nat → W) : ∀ (ps : List (Nat × Nat)) (st : Store W),
    (∀ p ∈ ps, ∀ c < inp.ncols, fieldOf inp c ≠ none → cellOf inp c p.2 = .ok (cell c p.2)) →
    (writes inp ps st).2 = .ok () ∧
    (∀ n, lastRow n ps = none → Untouched st (writes inp ps st).1 n) ∧
    (∀ n i, lastRow n ps = some i → (∀ f, f ∈ (writes inp ps st).1.names n ↔ f ∈ st.names n ∨ Col inp f) ∧
      (∀ f, (writes inp ps st).1.vals n f = match lastCol inp f (List.range inp.ncols) with
        | some c => putCell inp.setcurr inp.src (cell c i) (before st n f)
        | none => st.vals n f)) := by
  intro ps
  induction ps with
  | nil => intro st _; exact ⟨rfl, fun n _ => ⟨rfl, fun _ => rfl⟩, fun n i h => by simp [lastRow] at h⟩
  | cons p ps ih =>
    obtain ⟨n0, i0⟩ := p
    intro st h
    obtain ⟨a1, a2, a3, a4⟩ := writeRow_spec inp cell n0 i0 st (h (n0, i0) (by simp))
    have hw : writes inp ((n0, i0) :: ps) st = writes inp ps (writeRow inp n0 i0 st).1 := by
      simp only [writes]
      have : writeRow inp n0 i0 st = ((writeRow inp n0 i0 st).1, .ok ()) := by rw [← a1]
      rw [this]
    obtain ⟨b1, b2, b3⟩ := ih (writeRow inp n0 i0 st).1 (fun p hp => h p (List.mem_cons_of_mem _ hp))
    rw [hw]
    refine ⟨b1, fun n hn => ?_, fun n i hn => ?_⟩
    · simp only [lastRow, Option.or_eq_none_iff] at hn
      have hne : n ≠ n0 := by rintro rfl; simp at hn
      obtain ⟨x1, x2⟩ := b2 n hn.1
      obtain ⟨y1, y2⟩ := a2 n hne
      exact ⟨x1.trans y1, fun f => (x2 f).trans (y2 f)⟩
    · simp only [lastRow] at hn
      cases hl : lastRow n ps with
      | none =>
        rw [hl] at hn
        simp only [Option.none_or, Option.ite_none_right_eq_some, Option.some.injEq] at hn
        obtain ⟨rfl, rfl⟩ := hn
        obtain ⟨x1, x2⟩ := b2 _ hl
        exact ⟨fun f => by rw [x1]; exact a3 f, fun f => by rw [x2]; exact a4 f⟩
      | some j =>
        rw [hl] at hn
        simp only [Option.some_or, Option.some.injEq] at hn
        subst hn
        obtain ⟨x1, x2⟩ := b3 n j hl
        by_cases hne : n = n0
        · subst hne
          exact holds_trans a3 a4 x1 x2
        · obtain ⟨y1, y2⟩ := a2 n hne
          refine ⟨fun f => by rw [x1 f, y1], fun f => ?_⟩
          rw [x2 f]
          simp only [before, y1, y2]

theorem holds_of {inp : Input V W} {cell : Nat → Nat → W} {n i : Nat} {st st' : Store W}
    (h : (∀ f, f ∈ st'.names n ↔ f ∈ st.names n ∨ Col inp f) ∧
      (∀ f, st'.vals n f = match lastCol inp f (List.range inp.ncols) with
        | some c => putCell inp.setcurr inp.src (cell c i) (before st n f)
        | none => st.vals n f)) : HoldsRow inp cell st st' n i := by
  obtain ⟨c3, c4⟩ := h
  refine ⟨fun f c hl => ?_, fun f hf => ?_, fun f => ?_⟩
  · rw [c4 f, lastCol_range hl]
    exact putCell_stored _ _ _ _
  · rw [c4 f, lastCol_none.mpr (fun c hc => hf c (List.mem_range.mp hc))]
  · rw [c3 f]
    simp [Col]

/-- The pairs the loop writes. -/
def pairs (matcher : Option (Nat → Nat → Bool)) : List Nat → List Nat → Option Nat → Option (List (Nat × Nat))
  | [], _, _ => some []
  | i :: is, nodes, prev => match choose matcher i nodes prev with
    | (none, _) => none
    | (some n, rest) => (pairs matcher is rest (some n)).map ((n, i) :: ·)

theorem rowLoop_pairs (inp : Input V W) (matcher : Option (Nat → Nat → Bool)) : ∀ (is nodes : List Nat) (prev : Option Nat)
    (st : Store W) (ps : List (Nat × Nat)), pairs matcher is nodes prev = some ps →
    rowLoop inp matcher is nodes prev st = writes inp ps st := by
  intro is
  induction is with
  | nil => intro nodes prev st ps h; simp only [pairs, Option.some.injEq] at h; subst h; rfl
  | cons i is ih =>
    intro nodes prev st ps h
    simp only [pairs] at h
    simp only [rowLoop]
    rcases hc : choose matcher i nodes prev with ⟨_ | n, rest⟩
    · rw [hc] at h; simp at h
    · rw [hc] at h
      simp only [Option.map_eq_some_iff] at h
      obtain ⟨qs, hq, rfl⟩ := h
      simp only [writes]
      rcases hw : writeRow inp n i st with ⟨st1, _ | _⟩
      · rfl
      · exact ih rest (some n) st1 qs hq

/-- The outcome when the pairs are known. -/
theorem loop_outcome {inp : Input V W} {cell : Nat → Nat → W} (hcell : Cells inp cell) {matcher : Option (Nat → Nat → Bool)}
    {nodes : List Nat} {ps : List (Nat × Nat)} (hp : pairs matcher (List.range inp.nrows) nodes none = some ps)
    (hi : ∀ p ∈ ps, p.2 < inp.nrows) (hck : checked inp = .ok ()) (hn : matcher.isNone → inp.nrows = nodes.length) (st : Store W) :
    (arrayToNodes inp matcher nodes st).2 = .ok () ∧
    (∀ n, lastRow n ps = none → Untouched st (arrayToNodes inp matcher nodes st).1 n) ∧
    (∀ n i, lastRow n ps = some i → HoldsRow inp cell st (arrayToNodes inp matcher nodes st).1 n i) := by
  have e : arrayToNodes inp matcher nodes st = writes inp ps st := by
    simp only [arrayToNodes, hck]
    rw [if_neg (fun h => h.2 (hn h.1)), rowLoop_pairs inp matcher _ _ _ _ _ hp]
  rw [e]
  obtain ⟨a, b, c⟩ := writes_spec inp cell ps st (fun p hpp c hc => hcell c hc p.2 (hi p hpp))
  exact ⟨a, b, fun n i h => holds_of (c n i h)⟩

theorem pairs_rows {matcher : Option (Nat → Nat → Bool)} : ∀ {is nodes : List Nat} {prev : Option Nat} {ps : List (Nat × Nat)},
    pairs matcher is nodes prev = some ps → ps.map (·.2) = is := by
  intro is
  induction is with
  | nil => intro nodes prev ps h; simp only [pairs, Option.some.injEq] at h; subst h; rfl
  | cons i is ih =>
    intro nodes prev ps h
    simp only [pairs] at h
    rcases hc : choose matcher i nodes prev with ⟨_ | n, rest⟩
    · rw [hc] at h; simp at h
    · rw [hc] at h
      simp only [Option.map_eq_some_iff] at h
      obtain ⟨qs, hq, rfl⟩ := h
      simp [ih hq]

theorem lastRow_none {n : Nat} : ∀ {ps : List (Nat × Nat)}, lastRow n ps = none ↔ ∀ p ∈ ps, p.1 ≠ n := by
  intro ps
  induction ps with
  | nil => simp [lastRow]
  | cons p ps ih =>
    simp only [lastRow, Option.or_eq_none_iff, ih, List.mem_cons, forall_eq_or_imp]
    constructor
    · rintro ⟨a, b⟩
      exact ⟨fun h => by simp [h] at b, a⟩
    · rintro ⟨a, b⟩
      exact ⟨b, by simp [a]⟩

/-- In a list of pairs with distinct nodes, each node has its own row. -/
theorem lastRow_zip {ns is : List Nat} (hd : ns.Nodup) (k : Nat) (hk : k < ns.length) (hi : k < is.length) :
    lastRow ns[k] (ns.zip is) = some is[k] := by
  induction ns generalizing is k with
  | nil => simp at hk
  | cons n ns ih =>
    cases is with
    | nil => simp at hi
    | cons i is =>
      obtain ⟨h1, h2⟩ := List.nodup_cons.mp hd
      simp only [List.zip_cons_cons, lastRow]
      cases k with
      | zero =>
        have : lastRow n (ns.zip is) = none := lastRow_none.mpr (fun p hp => by
          rintro rfl
          exact h1 (List.of_mem_zip hp).1)
        simp [this]
      | succ k =>
        simp only [List.length_cons, Nat.add_lt_add_iff_right] at hk hi
        simp [ih h2 k hk hi]

/-! ## Without a matcher -/

theorem pairs_none : ∀ (is nodes : List Nat) (prev : Option Nat), is.length = nodes.length →
    pairs none is nodes prev = some (nodes.zip is) := by
  intro is
  induction is with
  | nil => intro nodes prev h; cases nodes <;> simp_all [pairs]
  | cons i is ih =>
    intro nodes prev h
    cases nodes with
    | nil => simp at h
    | cons n nodes =>
      simp only [List.length_cons, Nat.add_right_cancel_iff] at h
      simp [pairs, choose, ih nodes (some n) h]

/-- **C135**: without a matcher row `k` is stored in node `k`, for every `k`, and no other node is touched. -/
theorem rows_in_order {inp : Input V W} {cell : Nat → Nat → W} (hcell : Cells inp cell) (hck : checked inp = .ok ())
    {nodes : List Nat} (hd : nodes.Nodup) (hn : inp.nrows = nodes.length) (st : Store W) :
    (arrayToNodes inp none nodes st).2 = .ok () ∧
    (∀ k (hk : k < nodes.length), HoldsRow inp cell st (arrayToNodes inp none nodes st).1 nodes[k] k) ∧
    (∀ n, n ∉ nodes → Untouched st (arrayToNodes inp none nodes st).1 n) := by
  have hp := pairs_none (List.range inp.nrows) nodes none (by simp [hn])
  obtain ⟨a, b, c⟩ := loop_outcome hcell hp (fun p hp => List.mem_range.mp (List.of_mem_zip hp).2) hck (fun _ => hn) st
  refine ⟨a, fun k hk => c _ _ ?_, fun n hnn => b n (lastRow_none.mpr (fun p hp => ?_))⟩
  · rw [lastRow_zip hd k hk (by simpa [hn] using hk)]
    simp
  · rintro rfl
    exact hnn (List.of_mem_zip hp).1

/-- **C135**: a wrong number of nodes is refused and nothing changes. -/
theorem wrong_number_refused {inp : Input V W} (hck : checked inp = .ok ()) {nodes : List Nat} (hn : inp.nrows ≠ nodes.length)
    (st : Store W) : arrayToNodes inp none nodes st = (st, .error .value) := by
  simp [arrayToNodes, hck, hn]

/-! ## With a matcher -/

/-- `asg` assigns to each row the first node, in order, that matches and that no earlier row has got. -/
def Greedy (p : Nat → Nat → Bool) (nrows : Nat) (nodes asg : List Nat) : Prop :=
  asg.length = nrows ∧ ∀ k (hk : k < asg.length),
    nodes.find? (fun n => p k n && !(asg.take k).contains n) = some asg[k]

theorem find_filter {A : Type} (p q : A → Bool) (l : List A) : (l.filter q).find? p = l.find? (fun a => p a && q a) := by
  induction l with
  | nil => rfl
  | cons a l ih =>
    by_cases hq : q a = true
    · by_cases hp : p a = true
      · simp [hq, hp]
      · simp [hq, hp, ih]
    · simp [hq, ih]

theorem eraseP_find {l : List Nat} (hd : l.Nodup) {p : Nat → Bool} {n : Nat} (h : l.find? p = some n) :
    l.eraseP p = l.filter (fun x => x ≠ n) := by
  induction l with
  | nil => simp at h
  | cons a l ih =>
    obtain ⟨h1, h2⟩ := List.nodup_cons.mp hd
    by_cases hp : p a = true
    · simp only [List.find?_cons, hp, Option.some.injEq] at h
      subst h
      rw [List.eraseP_cons_of_pos hp, List.filter_cons]
      simp only [ne_eq, not_true_eq_false, decide_false, Bool.false_eq_true, if_false]
      exact (List.filter_eq_self.mpr (fun x hx => by
        simp only [decide_not, Bool.not_eq_true', decide_eq_false_iff_not]
        rintro rfl; exact h1 hx)).symm
    · simp only [List.find?_cons, hp] at h
      have hn : n ∈ l := List.mem_of_find?_eq_some h
      have : a ≠ n := fun e => h1 (e ▸ hn)
      rw [List.eraseP_cons_of_neg hp, List.filter_cons, ih h2 h]
      simp [this]

theorem pairs_greedy {p : Nat → Nat → Bool} {nodes asg : List Nat} (hd : nodes.Nodup) : ∀ (rest : List Nat) (k : Nat)
    (prev : Option Nat), k + rest.length = asg.length → asg.drop k = rest →
    (∀ j (hj : j < asg.length), nodes.find? (fun n => p j n && !(asg.take j).contains n) = some asg[j]) →
    pairs (some p) (List.range' k rest.length) (nodes.filter (fun n => !(asg.take k).contains n)) prev =
      some (rest.zip (List.range' k rest.length)) := by
  intro rest
  induction rest with
  | nil => intro k prev _ _ _; simp [pairs]
  | cons n rest ih =>
    intro k prev hl hdr h
    have hk : k < asg.length := by simp at hl; omega
    have hn : asg[k] = n := by
      have := List.drop_eq_getElem_cons hk
      rw [hdr] at this
      exact (List.cons.inj this).1.symm
    have hrest : asg.drop (k + 1) = rest := by
      have := List.drop_eq_getElem_cons hk
      rw [hdr] at this
      exact (List.cons.inj this).2.symm
    have hf := h k hk
    rw [hn] at hf
    have hfind : (nodes.filter (fun n => !(asg.take k).contains n)).find? (p k) = some n := by rw [find_filter]; exact hf
    have her : (nodes.filter (fun n => !(asg.take k).contains n)).eraseP (p k) =
        nodes.filter (fun n => !(asg.take (k + 1)).contains n) := by
      rw [eraseP_find (hd.filter _) hfind, List.filter_filter]
      apply List.filter_congr
      intro x _
      rw [List.take_succ_eq_append_getElem hk, hn]
      simp only [List.contains_eq_mem, List.mem_append, List.mem_singleton]
      by_cases hx : x = n <;> by_cases hy : x ∈ List.take k asg <;> simp [hx, hy]
    rw [List.length_cons, List.range'_succ]
    simp only [pairs, choose, hfind, her, List.zip_cons_cons]
    rw [ih (k + 1) (some n) (by simp at hl; omega) hrest h]
    rfl

theorem greedy_nodup {p : Nat → Nat → Bool} {nodes asg : List Nat}
    (h : ∀ j (hj : j < asg.length), nodes.find? (fun n => p j n && !(asg.take j).contains n) = some asg[j]) : asg.Nodup := by
  rw [List.nodup_iff_pairwise_ne, List.pairwise_iff_getElem]
  intro i j hi hj hij he
  have := List.find?_some (h j hj)
  simp only [Bool.and_eq_true, Bool.not_eq_true', List.contains_eq_mem, decide_eq_false_iff_not] at this
  apply this.2
  rw [← he]
  exact List.mem_take_iff_getElem.mpr ⟨i, by omega, rfl⟩

/-- **C135**: with a matcher, if every row finds a node, each row is stored in the first matching node that no earlier row
has got; no two rows share a node, and the other nodes are untouched. -/
theorem rows_matched {inp : Input V W} {cell : Nat → Nat → W} (hcell : Cells inp cell) (hck : checked inp = .ok ())
    {nodes : List Nat} (hd : nodes.Nodup) {p : Nat → Nat → Bool} {asg : List Nat} (hg : Greedy p inp.nrows nodes asg)
    (st : Store W) :
    asg.Nodup ∧ (arrayToNodes inp (some p) nodes st).2 = .ok () ∧
    (∀ k (hk : k < asg.length), HoldsRow inp cell st (arrayToNodes inp (some p) nodes st).1 asg[k] k) ∧
    (∀ n, n ∉ asg → Untouched st (arrayToNodes inp (some p) nodes st).1 n) := by
  obtain ⟨hlen, hg⟩ := hg
  have hp := pairs_greedy hd asg 0 none (by simp) (by simp) hg
  have hn0 : nodes.filter (fun n => !(asg.take 0).contains n) = nodes := List.filter_eq_self.mpr (by simp)
  rw [hn0, hlen, ← List.range_eq_range'] at hp
  have hnd := greedy_nodup hg
  obtain ⟨a, b, c⟩ := loop_outcome hcell hp (fun p hp => List.mem_range.mp (List.of_mem_zip hp).2) hck (fun h => by simp at h) st
  refine ⟨hnd, a, fun k hk => c _ _ ?_, fun n hnn => b n (lastRow_none.mpr (fun p hp => ?_))⟩
  · rw [lastRow_zip hnd k hk (by simpa [← hlen] using hk)]
    simp
  · rintro rfl
    exact hnn (List.of_mem_zip hp).1

/-! ## `arrayToCatalog` -/

theorem makeNodes_nodes (filter : Nat → Bool) (src : String) (name : Option (String × (Nat → W))) (isNone : String → Bool) :
    ∀ (is : List Nat) (base : Nat) (st : Store W),
    (makeNodes filter src name isNone is base st).2 = List.range' base (is.filter filter).length := by
  intro is
  induction is with
  | nil => intro base st; rfl
  | cons i is ih =>
    intro base st
    by_cases h : filter i = true
    · simp only [makeNodes, h, if_true, List.filter_cons, List.length_cons, List.range'_succ]
      rw [ih]
    · simp only [makeNodes, h, List.filter_cons, Bool.false_eq_true, if_false]
      exact ih base st

/-- The pairs with a matcher that looks at the row only. -/
theorem pairs_filter {p : Nat → Bool} : ∀ (is nodes : List Nat) (prev : Option Nat), (is.filter p).length = nodes.length →
    nodes.Nodup → (nodes ≠ [] ∨ ∃ m, prev = some m) →
    ∃ ps, pairs (some (fun i _ => p i)) is nodes prev = some ps ∧
      (∀ k (hk : k + 1 < nodes.length) (hk' : k < (is.filter p).length), lastRow nodes[k] ps = some (is.filter p)[k]) ∧
      (∀ m, (nodes.getLast?).or prev = some m → lastRow m ps = is.getLast?) ∧
      (∀ n, n ∉ nodes → (nodes.getLast?).or prev ≠ some n → lastRow n ps = none) := by
  intro is
  induction is with
  | nil =>
    intro nodes prev hl _ _
    refine ⟨[], rfl, ?_, ?_, ?_⟩
    · intro k hk hk'; simp at hk'
    · intro m _; rfl
    · intro n _ _; rfl
  | cons i is ih =>
    intro nodes prev hl hd hne
    have hlast : ∀ (m n : Nat) (ps : List (Nat × Nat)), lastRow m ps = is.getLast? → (is = [] → n = m) →
        lastRow m ((n, i) :: ps) = (i :: is).getLast? := by
      intro m n ps h hn
      rw [lastRow, h, List.getLast?_cons]
      cases hg : is.getLast? with
      | some x => simp
      | none =>
        have := hn (List.getLast?_eq_none_iff.mp hg)
        simp [this]
    by_cases hp : p i = true
    · rw [List.filter_cons_of_pos hp, List.length_cons] at hl
      cases nodes with
      | nil => simp at hl
      | cons n nodes =>
        obtain ⟨hn1, hn2⟩ := List.nodup_cons.mp hd
        have hch : choose (some (fun i _ => p i)) i (n :: nodes) prev = (some n, nodes) := by
          simp [choose, hp]
        obtain ⟨ps, e1, e2, e3, e4⟩ := ih nodes (some n) (by simpa using hl) hn2 (.inr ⟨n, rfl⟩)
        have htgt : ((n :: nodes).getLast?).or prev = (nodes.getLast?).or (some n) := by
          rw [List.getLast?_cons]
          cases nodes.getLast? <;> simp
        refine ⟨(n, i) :: ps, by simp [pairs, hch, e1], ?_, ?_, ?_⟩
        · intro k hk hk'
          cases k with
          | zero =>
            have hne : nodes ≠ [] := by rintro rfl; simp at hk
            have hl0 : lastRow n ps = none := by
              refine e4 n hn1 ?_
              rw [List.getLast?_eq_some_getLast hne]
              simp only [Option.some_or, ne_eq, Option.some.injEq]
              intro e
              exact hn1 (e ▸ List.getLast_mem hne)
            simp [lastRow, hl0, List.filter_cons_of_pos hp]
          | succ k =>
            simp only [List.length_cons, Nat.add_lt_add_iff_right] at hk
            have hk'' : k < (is.filter p).length := by
              rw [List.filter_cons_of_pos hp] at hk'; simpa using hk'
            have := e2 k hk hk''
            simp only [List.getElem_cons_succ, lastRow, this, Option.some_or, List.filter_cons_of_pos hp]
        · intro m hm
          rw [htgt] at hm
          refine hlast m n ps (e3 m hm) (fun hi => ?_)
          subst hi
          have : nodes = [] := by
            have : nodes.length = 0 := by simpa using hl.symm
            exact List.eq_nil_of_length_eq_zero this
          subst this
          simpa using hm
        · intro x hx hxp
          simp only [List.mem_cons, not_or] at hx
          have := e4 x hx.2 (htgt ▸ hxp)
          have hne' : ¬ n = x := fun h => hx.1 h.symm
          simp [lastRow, this, hne']
    · rw [List.filter_cons_of_neg hp] at hl
      have hf : List.find? (fun _ => p i) nodes = none := by
        rw [List.find?_eq_none]; simp [hp]
      obtain ⟨m, hm⟩ : ∃ m, (nodes.getLast?).or prev = some m := by
        rcases hne with h | ⟨m, rfl⟩
        · exact ⟨_, by rw [List.getLast?_eq_some_getLast h]; rfl⟩
        · cases nodes.getLast? with
          | none => exact ⟨m, rfl⟩
          | some x => exact ⟨x, rfl⟩
      have hch : choose (some (fun i _ => p i)) i nodes prev = (some m, nodes) := by
        simp [choose, hf, hm]
      obtain ⟨ps, e1, e2, e3, e4⟩ := ih nodes (some m) hl hd (.inr ⟨m, rfl⟩)
      have htgt : (nodes.getLast?).or (some m) = some m := by
        cases hg : nodes.getLast? with
        | none => rfl
        | some x => rw [hg] at hm; simpa using hm
      refine ⟨(m, i) :: ps, by simp [pairs, hch, e1], ?_, ?_, ?_⟩
      · intro k hk hk'
        have hk'' : k < (is.filter p).length := by
          rw [List.filter_cons_of_neg hp] at hk'; exact hk'
        simp only [lastRow, e2 k hk hk'', Option.some_or, List.filter_cons_of_neg hp]
      · intro m' hm'
        rw [hm] at hm'
        cases hm'
        exact hlast m m ps (e3 m htgt) (fun _ => rfl)
      · intro x hx hxp
        rw [hm] at hxp
        have := e4 x hx (by rw [htgt]; exact hxp)
        simp only [lastRow, this, Option.none_or, ite_eq_right_iff, reduceCtorEq, imp_false]
        rintro rfl
        exact hxp rfl

/-- The rows a filter accepts, in order. -/
def keptRows (filter : Nat → Bool) (nrows : Nat) : List Nat := (List.range nrows).filter filter

/-- **C135**: `arrayToCatalog` with a filter makes one node for every accepted row, in order; each node but the last holds its
row; the last node holds the last row of the array, accepted or not. -/
theorem filtered_exact {inp : Input V W} {cell : Nat → Nat → W} (hcell : Cells inp cell) (hck : checked inp = .ok ())
    (filter : Nat → Bool) (name : Option (String × (Nat → W))) (isNone : String → Bool) (base : Nat) (st : Store W)
    (hk : keptRows filter inp.nrows ≠ []) :
    let made := makeNodes filter inp.src name isNone (List.range inp.nrows) base st
    let r := arrayToCatalog inp (some filter) name isNone base st
    r.2 = .ok () ∧ r.1.2 = List.range' base (keptRows filter inp.nrows).length ∧
    (∀ k (h : k < (keptRows filter inp.nrows).length), k + 1 < (keptRows filter inp.nrows).length →
      HoldsRow inp cell made.1 r.1.1 (base + k) (keptRows filter inp.nrows)[k]) ∧
    HoldsRow inp cell made.1 r.1.1 (base + ((keptRows filter inp.nrows).length - 1)) (inp.nrows - 1) ∧
    (∀ n, n ∉ r.1.2 → Untouched made.1 r.1.1 n) := by
  intro made r
  have hmade : made.2 = List.range' base (keptRows filter inp.nrows).length := makeNodes_nodes _ _ _ _ _ _ _
  have hlen : (keptRows filter inp.nrows).length ≠ 0 := by simpa using hk
  have hpos : inp.nrows ≠ 0 := by
    rintro h
    apply hk
    simp [keptRows, h]
  obtain ⟨ps, e1, e2, e3, e4⟩ := pairs_filter (p := filter) (List.range inp.nrows) made.2 none
    (by rw [hmade]; simp [keptRows]) (by rw [hmade]; exact List.nodup_range')
    (.inl (by rw [hmade]; simp [hk]))
  have hrows := pairs_rows e1
  obtain ⟨a, b, c⟩ := loop_outcome hcell (matcher := some (fun i _ => filter i)) (nodes := made.2) e1
    (fun p hp => List.mem_range.mp (hrows ▸ List.mem_map.mpr ⟨p, hp, rfl⟩)) hck (fun h => by simp at h) made.1
  have hr : r = ((((arrayToNodes inp (some (fun i _ => filter i)) made.2 made.1).1, made.2),
      (arrayToNodes inp (some (fun i _ => filter i)) made.2 made.1).2)) := rfl
  have hlast : made.2.getLast? = some (base + ((keptRows filter inp.nrows).length - 1)) := by
    rw [hmade, List.getLast?_range']
    simp only [hlen, if_false]
    congr 1
    omega
  rw [hr]
  refine ⟨a, hmade, fun k h hk1 => c _ _ ?_, c _ _ ?_, fun n hn => b n (e4 n hn ?_)⟩
  · have := e2 k (by rw [hmade]; simpa using hk1) h
    have hg : made.2[k]'(by rw [hmade]; simpa using h) = base + k := by simp [hmade]
    rw [hg] at this
    exact this
  · rw [e3 _ (by rw [hlast]; rfl)]
    rw [List.getLast?_range]
    simp [hpos]
  · rw [hlast]
    simp only [Option.some_or, ne_eq, Option.some.injEq]
    rintro rfl
    exact hn (List.mem_of_getLast? hlast)

/-- **C135**: so the catalog is right when the last row is accepted. -/
theorem filtered_right {inp : Input V W} {cell : Nat → Nat → W} (hcell : Cells inp cell) (hck : checked inp = .ok ())
    (filter : Nat → Bool) (name : Option (String × (Nat → W))) (isNone : String → Bool) (base : Nat) (st : Store W)
    (hl : filter (inp.nrows - 1) = true) (hpos : inp.nrows ≠ 0) :
    let made := makeNodes filter inp.src name isNone (List.range inp.nrows) base st
    let r := arrayToCatalog inp (some filter) name isNone base st
    ∀ k (h : k < (keptRows filter inp.nrows).length),
      HoldsRow inp cell made.1 r.1.1 (base + k) (keptRows filter inp.nrows)[k] := by
  intro made r k h
  have hk : keptRows filter inp.nrows ≠ [] := List.ne_nil_of_length_pos (by omega)
  obtain ⟨_, _, h1, h2, _⟩ := filtered_exact hcell hck filter name isNone base st hk
  by_cases hk1 : k + 1 < (keptRows filter inp.nrows).length
  · exact h1 k h hk1
  · have e : k = (keptRows filter inp.nrows).length - 1 := by omega
    have e2 : (keptRows filter inp.nrows)[k] = inp.nrows - 1 := by
      subst e
      have hg : (keptRows filter inp.nrows).getLast hk = inp.nrows - 1 := by
        have : List.range inp.nrows = List.range (inp.nrows - 1) ++ [inp.nrows - 1] := by
          conv => lhs; rw [show inp.nrows = (inp.nrows - 1) + 1 by omega]
          exact List.range_succ
        simp only [keptRows]
        have e3 : (List.range inp.nrows).filter filter = (List.range (inp.nrows - 1)).filter filter ++ [inp.nrows - 1] := by
          rw [this, List.filter_append]
          simp [hl]
        simp [e3]
      rw [← hg, List.getLast_eq_getElem]
    rw [e2, e]
    exact h2

/-- **C135**, limit: a filter that accepts no row makes the call fail. -/
theorem nothing_accepted_fails {inp : Input V W} (hck : checked inp = .ok ()) (filter : Nat → Bool)
    (name : Option (String × (Nat → W))) (isNone : String → Bool) (base : Nat) (st : Store W)
    (hk : keptRows filter inp.nrows = []) :
    (arrayToCatalog inp (some filter) name isNone base st).2 = .error .unbound := by
  have hpos : inp.nrows ≠ 0 := by
    intro h
    simp [checked, h] at hck
  have hmade : (makeNodes filter inp.src name isNone (List.range inp.nrows) base st).2 = [] := by
    rw [makeNodes_nodes]
    have : ((List.range inp.nrows).filter filter) = [] := hk
    simp [this]
  obtain ⟨m, hm⟩ : ∃ m, inp.nrows = m + 1 := ⟨inp.nrows - 1, by omega⟩
  simp only [arrayToCatalog, arrayToNodes, hck, Option.getD_some, hmade, Option.map_some, Option.isNone_some,
    Bool.false_eq_true, false_and, if_false]
  rw [hm, List.range_eq_range', List.range'_succ]
  simp [rowLoop, choose]

/-- **C135**: without a filter every row has its node, in order. -/
theorem unfiltered_exact {inp : Input V W} {cell : Nat → Nat → W} (hcell : Cells inp cell) (hck : checked inp = .ok ())
    (name : Option (String × (Nat → W))) (isNone : String → Bool) (base : Nat) (st : Store W) :
    let made := makeNodes (fun _ => true) inp.src name isNone (List.range inp.nrows) base st
    let r := arrayToCatalog inp none name isNone base st
    r.2 = .ok () ∧ r.1.2 = List.range' base inp.nrows ∧
    ∀ k < inp.nrows, HoldsRow inp cell made.1 r.1.1 (base + k) k := by
  intro made r
  have hmade : made.2 = List.range' base inp.nrows := by
    have := makeNodes_nodes (fun _ => true) inp.src name isNone (List.range inp.nrows) base st
    simpa using this
  obtain ⟨a, b, _⟩ := rows_in_order hcell hck (nodes := made.2) (by rw [hmade]; exact List.nodup_range') (by rw [hmade]; simp) made.1
  refine ⟨a, hmade, fun k hk => ?_⟩
  have := b k (by rw [hmade]; simpa using hk)
  have hg : made.2[k]'(by rw [hmade]; simpa using hk) = base + k := by simp [hmade]
  rw [hg] at this
  exact this

/-! ## The names of the nodes -/

/-- Field `f` of a node is new, empty, or holds a default only. -/
def Fresh (isNone : String → Bool) (st : Store W) (f : String) (n : Nat) : Prop :=
  f ∉ st.names n ∨ st.vals n f = [] ∨ ∃ x, st.vals n f = [x] ∧ isNone x.1 = true

theorem nameNode_spec (src : String) (isNone : String → Bool) (i n : Nat) (st : Store W) (f : String) (g : Nat → W)
    (h : Fresh isNone st f n) :
    (nameNode src isNone i n st (some (f, g))).vals n f = [(src, g i)] ∧
    f ∈ (nameNode src isNone i n st (some (f, g))).names n := by
  have hold : (if ((if f ∈ st.names n then st.vals n f else []) : List (String × W)).length = 1 ∧
      ((if f ∈ st.names n then st.vals n f else []) : List (String × W)).any (fun x => isNone x.1) then []
      else (if f ∈ st.names n then st.vals n f else [])) = ([] : List (String × W)) := by
    by_cases hm : f ∈ st.names n
    · rcases h with h | h | ⟨x, h, hx⟩
      · exact absurd hm h
      · simp [hm, h]
      · simp [hm, h, hx]
    · simp [hm]
  constructor
  · simp only [nameNode, and_self, if_true, hold, put]
  · simp only [nameNode, if_true]
    split_ifs with hm
    · exact hm
    · simp

theorem nameNode_other (src : String) (isNone : String → Bool) (i n m : Nat) (st : Store W) (f h : String) (g : Nat → W)
    (hne : m ≠ n ∨ h ≠ f) : (nameNode src isNone i n st (some (f, g))).vals m h = st.vals m h ∧
    (m ≠ n → (nameNode src isNone i n st (some (f, g))).names m = st.names m) := by
  constructor
  · simp only [nameNode]
    rw [if_neg]
    rintro ⟨rfl, rfl⟩
    simp at hne
  · intro hm
    simp [nameNode, hm]

/-- **C135**: each node made gets the name computed from the number of its row, as its only value if there was at most a
default; nothing else in any node changes. -/
theorem names_exact (filter : Nat → Bool) (src f : String) (g : Nat → W) (isNone : String → Bool) : ∀ (is : List Nat) (base : Nat)
    (st : Store W), (∀ k, base ≤ k → Fresh isNone st f k) →
    (∀ k (h : k < (is.filter filter).length),
      (makeNodes filter src (some (f, g)) isNone is base st).1.vals (base + k) f = [(src, g (is.filter filter)[k])] ∧
      f ∈ (makeNodes filter src (some (f, g)) isNone is base st).1.names (base + k)) ∧
    (∀ k h, h ≠ f → (makeNodes filter src (some (f, g)) isNone is base st).1.vals k h = st.vals k h) ∧
    (∀ k, k < base → (makeNodes filter src (some (f, g)) isNone is base st).1.vals k f = st.vals k f ∧
      (makeNodes filter src (some (f, g)) isNone is base st).1.names k = st.names k) := by
  intro is
  induction is with
  | nil => intro base st _; exact ⟨fun k h => by simp at h, fun _ _ _ => rfl, fun _ _ => ⟨rfl, rfl⟩⟩
  | cons i is ih =>
    intro base st hst
    by_cases hf : filter i = true
    · have hmk : (makeNodes filter src (some (f, g)) isNone (i :: is) base st).1 =
          (makeNodes filter src (some (f, g)) isNone is (base + 1) (nameNode src isNone i base st (some (f, g)))).1 := by
        simp only [makeNodes, hf, if_true]
      rw [hmk]
      obtain ⟨a, b, c⟩ := ih (base + 1) (nameNode src isNone i base st (some (f, g))) (by
        intro k hk
        obtain ⟨e1, e2⟩ := nameNode_other src isNone i base k st f f g (.inl (by omega))
        simp only [Fresh, e1, e2 (by omega)]
        exact hst k (by omega))
      refine ⟨fun k h => ?_, fun k h hh => ?_, fun k hk => ?_⟩
      · rw [List.filter_cons_of_pos hf, List.length_cons] at h
        cases k with
        | zero =>
          obtain ⟨c1, c2⟩ := c base (by omega)
          obtain ⟨d1, d2⟩ := nameNode_spec src isNone i base st f g (hst base (Nat.le_refl _))
          simp only [Nat.add_zero, List.filter_cons_of_pos hf, List.getElem_cons_zero]
          rw [c1, c2]
          exact ⟨d1, d2⟩
        | succ k =>
          have := a k (by omega)
          simp only [List.filter_cons_of_pos hf, List.getElem_cons_succ]
          rw [show base + (k + 1) = base + 1 + k by omega]
          exact this
      · rw [b k h hh, (nameNode_other src isNone i base k st f h g (.inr hh)).1]
      · obtain ⟨c1, c2⟩ := c k (by omega)
        obtain ⟨d1, d2⟩ := nameNode_other src isNone i base k st f f g (.inl (by omega))
        exact ⟨c1.trans d1, c2.trans (d2 (by omega))⟩
    · have hmk : makeNodes filter src (some (f, g)) isNone (i :: is) base st =
          makeNodes filter src (some (f, g)) isNone is base st := by
        simp only [makeNodes, hf, Bool.false_eq_true, if_false]
      rw [hmk]
      simp only [List.filter_cons_of_neg hf]
      exact ih base st hst

/-! ## Values, errors and converters -/

/-- The value that is documented: the converter applied to the value, with its upper and lower error if errors are given. -/
def documented (inp : Input V W) (c i : Nat) : Option W :=
  let v : V × Option (V × V) := (inp.val c i, inp.uerr.map (fun ue => (ue c i, (inp.lerr.getD ue) c i)))
  match inp.conv c with
  | .one f => some (f v)
  | .two f => some (f v i)
  | .star _ => none

/-- A converter with `*args`. -/
def isStar : Conv V W → Bool
  | .star _ => true
  | _ => false

/-- Two arguments? -/
def isTwo : Conv V W → Bool
  | .two _ => true
  | _ => false

theorem flags_plain {inp : Input V W} (h : ∀ c < inp.ncols, isStar (inp.conv c) = false) (c : Nat) (hc : c < inp.ncols) :
    (flags inp)[c]? = some (isTwo (inp.conv c)) := by
  have : flags inp = (List.range inp.ncols).map (fun c => isTwo (inp.conv c)) := by
    unfold flags
    rw [← List.filterMap_eq_map]
    apply List.filterMap_congr
    intro d hd
    have := h d (List.mem_range.mp hd)
    cases hv : inp.conv d <;> simp_all [isStar, isTwo]
  rw [this]
  simp [hc]

/-- **C135**: with converters of one or two arguments, and errors only for arrays that are not structured, every value is
stored as documented. -/
theorem cells_documented {inp : Input V W} (h : ∀ c < inp.ncols, isStar (inp.conv c) = false)
    (he : inp.uerr = none ∨ ∀ names, inp.layout ≠ .struct names) (c i : Nat) (hc : c < inp.ncols) :
    ∃ w, documented inp c i = some w ∧ cellOf inp c i = .ok w := by
  have hw : withErr inp c i = .ok (inp.val c i, inp.uerr.map (fun ue => (ue c i, (inp.lerr.getD ue) c i))) := by
    rcases he with he | he
    · simp [withErr, he]
    · have hat : ∀ e : Nat → Nat → V, errAt inp e c i = .ok (e c i) := by
        intro e
        unfold errAt
        cases hl : inp.layout with
        | struct names => exact absurd hl (he names)
        | oned => rfl
        | twod => rfl
      unfold withErr
      cases hu : inp.uerr with
      | none => rfl
      | some ue =>
        simp only [hat]
        cases hle : inp.lerr <;> rfl
  simp only [cellOf, hw, flags_plain h c hc, documented]
  have := h c hc
  cases hv : inp.conv c with
  | one f => exact ⟨_, rfl, rfl⟩
  | two f => exact ⟨_, rfl, rfl⟩
  | star f => rw [hv] at this; simp [isStar] at this

/-- The key stands for the column: by number, or by the name the column has in a structured array. -/
def Means (inp : Input V W) : Key → Nat → Prop
  | .idx i, c => i = c
  | .nm s, c => ∃ names, inp.layout = .struct names ∧ names[c]? = some s

theorem look_iff {d : List (Key × String)} (hd : (d.map (·.1)).Nodup) (k : Key) (f : String) : look d k = some f ↔ (k, f) ∈ d := by
  induction d with
  | nil => simp [look]
  | cons p d ih =>
    rw [List.map_cons, List.nodup_cons] at hd
    obtain ⟨k', f'⟩ := p
    by_cases h : k' = k
    · subst h
      simp only [look, List.find?_cons, decide_true, Option.map_some, Option.some.injEq, List.mem_cons, Prod.mk.injEq, true_and]
      constructor
      · rintro rfl; exact .inl rfl
      · rintro (h | h)
        · exact h.symm
        · exact absurd (List.mem_map_of_mem (f := (·.1)) h) hd.1
    · have := ih hd.2
      simp only [look] at this ⊢
      simp only [List.find?_cons, h, decide_false, this, List.mem_cons, Prod.mk.injEq]
      constructor
      · exact .inr
      · rintro (⟨rfl, _⟩ | h')
        · exact absurd rfl h
        · exact h'

theorem look_none {d : List (Key × String)} (k : Key) : look d k = none ↔ ∀ f, (k, f) ∉ d := by
  simp only [look, Option.map_eq_none_iff, List.find?_eq_none]
  constructor
  · intro h f hf; simpa using h _ hf
  · rintro h ⟨k', f⟩ hp
    simp only [decide_eq_true_eq]
    rintro rfl
    exact h f hp

/-- **C135**: the field a column goes to: the one given for its name, or, if none is, the one given for its number. -/
theorem field_of_column (inp : Input V W) (hd : (inp.fields.map (·.1)).Nodup) (c : Nat) (f : String) :
    fieldOf inp c = some f ↔
      (∃ s, Means inp (.nm s) c ∧ (Key.nm s, f) ∈ inp.fields) ∨
      ((∀ s g, Means inp (.nm s) c → (Key.nm s, g) ∉ inp.fields) ∧ (Key.idx c, f) ∈ inp.fields) := by
  have plain : (∀ names, inp.layout = .struct names → names[c]? = none) → ((∃ s, Means inp (.nm s) c ∧ (Key.nm s, f) ∈ inp.fields) ∨
      ((∀ s g, Means inp (.nm s) c → (Key.nm s, g) ∉ inp.fields) ∧ (Key.idx c, f) ∈ inp.fields) ↔ (Key.idx c, f) ∈ inp.fields) := by
    intro h
    constructor
    · rintro (⟨s, ⟨names, h1, h2⟩, _⟩ | ⟨_, h3⟩)
      · rw [h names h1] at h2; cases h2
      · exact h3
    · intro h3
      refine .inr ⟨?_, h3⟩
      rintro s g ⟨names, h1, h2⟩
      rw [h names h1] at h2; cases h2
  unfold fieldOf
  cases hl : inp.layout with
  | oned => simp only; rw [plain (by intro n h; rw [hl] at h; cases h), look_iff hd]
  | twod => simp only; rw [plain (by intro n h; rw [hl] at h; cases h), look_iff hd]
  | struct names =>
    cases hn : names[c]? with
    | none =>
      simp only [hn]
      rw [plain (by intro n h; rw [hl] at h; cases h; exact hn), look_iff hd]
    | some nm =>
      simp only [hn]
      have hm : ∀ s, Means inp (.nm s) c ↔ s = nm := by
        intro s
        constructor
        · rintro ⟨n, h1, h2⟩
          rw [hl] at h1; cases h1
          rw [hn] at h2; cases h2; rfl
        · rintro rfl; exact ⟨names, hl, hn⟩
      cases hk : look inp.fields (.nm nm) with
      | some g =>
        simp only [Option.some.injEq]
        have hg := (look_iff hd _ _).1 hk
        constructor
        · rintro rfl; exact .inl ⟨nm, (hm nm).2 rfl, hg⟩
        · rintro (⟨s, h1, h2⟩ | ⟨h1, _⟩)
          · rw [(hm s).1 h1] at h2
            have := (look_iff hd _ _).2 h2
            rw [hk] at this; exact Option.some.inj this
          · exact absurd hg (h1 nm g ((hm nm).2 rfl))
      | none =>
        simp only
        rw [look_iff hd]
        have hg := (look_none _).1 hk
        constructor
        · intro h; exact .inr ⟨fun s g h1 => by rw [(hm s).1 h1]; exact hg g, h⟩
        · rintro (⟨s, h1, h2⟩ | ⟨_, h⟩)
          · rw [(hm s).1 h1] at h2; exact absurd h2 (hg f)
          · exact h

/-- **C135**: a key is accepted exactly if it stands for one of the columns. -/
theorem key_names_column (inp : Input V W) (hlen : ∀ names, inp.layout = .struct names → names.length = inp.ncols) (k : Key) :
    keyFound inp k = true ↔ ∃ c < inp.ncols, Means inp k c := by
  cases k with
  | idx i => simp [keyFound, Means]
  | nm s =>
    unfold keyFound Means
    cases hl : inp.layout with
    | oned => simp
    | twod => simp
    | struct names =>
      simp only [decide_eq_true_eq, Layout.struct.injEq, exists_eq_left']
      rw [List.mem_iff_getElem?]
      constructor
      · rintro ⟨c, hc⟩
        have := (List.getElem?_eq_some_iff.1 hc).1
        exact ⟨c, by rw [← hlen names hl]; exact this, hc⟩
      · rintro ⟨c, _, hc⟩; exact ⟨c, hc⟩

/-- **C135**: when the arguments are accepted: at least one row, every key of `fields` names a column, and (unless the array is
structured) as many fields as columns. -/
theorem checked_iff (inp : Input V W) (hlen : ∀ names, inp.layout = .struct names → names.length = inp.ncols) : checked inp = .ok () ↔
    inp.nrows ≠ 0 ∧ (∀ p ∈ inp.fields, ∃ c < inp.ncols, Means inp p.1 c) ∧
    (inp.layout = .oned → inp.fields.length = 1) ∧ (inp.layout = .twod → inp.fields.length = inp.ncols) := by
  simp only [← key_names_column inp hlen]
  unfold checked
  by_cases h0 : inp.nrows = 0
  · simp [h0]
  · simp only [h0, if_false]
    have hall : (inp.fields.all fun p => keyFound inp p.1) = true ↔ ∀ p ∈ inp.fields, keyFound inp p.1 = true := List.all_eq_true
    cases hl : inp.layout with
    | oned =>
      simp only [hall]
      by_cases h : inp.fields.length = 1 ∧ ∀ p ∈ inp.fields, keyFound inp p.1 = true
      · rw [if_pos h]; simp only [true_iff]; exact ⟨h0, h.2, fun _ => h.1, fun e => by cases e⟩
      · rw [if_neg h]
        simp only [reduceCtorEq, false_iff]
        rintro ⟨_, a, b, _⟩
        exact h ⟨b trivial, a⟩
    | twod =>
      simp only [hall]
      by_cases h : inp.fields.length = inp.ncols ∧ ∀ p ∈ inp.fields, keyFound inp p.1 = true
      · rw [if_pos h]; simp only [true_iff]; exact ⟨h0, h.2, fun e => by (cases e), fun _ => h.1⟩
      · rw [if_neg h]
        simp only [reduceCtorEq, false_iff]
        rintro ⟨_, a, _, b⟩
        exact h ⟨b trivial, a⟩
    | struct names =>
      simp only [hall]
      by_cases h : ∀ p ∈ inp.fields, keyFound inp p.1 = true
      · rw [if_pos h]; simp only [true_iff]; exact ⟨h0, h, fun e => by (cases e), fun e => by (cases e)⟩
      · rw [if_neg h]
        simp only [reduceCtorEq, false_iff]
        rintro ⟨_, a, _⟩
        exact h a

/-! ## Examples and counterexamples -/

/-- Two columns `x`, `y` and four rows; value `10 c + i`. -/
def demo : Input Nat (Nat × Option (Nat × Nat)) where
  layout := .twod
  ncols := 2
  nrows := 4
  val c i := 10 * c + i
  uerr := none
  lerr := none
  conv _ := .one id
  fields := [(.idx 0, "x"), (.idx 1, "y")]
  src := "survey"
  setcurr := true

/-- Nodes without fields. -/
def noFields : Store (Nat × Option (Nat × Nat)) := ⟨fun _ => [], fun _ _ => []⟩

example : checked demo = .ok () := by decide

example : LastCol demo "y" 1 := ⟨by decide, by decide, fun d h1 h2 => absurd h2 (by simp [demo]; omega)⟩

example : Greedy (fun i n => i + n == 3) 4 [0, 1, 2, 3] [3, 2, 1, 0] := by
  refine ⟨rfl, fun k hk => ?_⟩
  have : k = 0 ∨ k = 1 ∨ k = 2 ∨ k = 3 := by simp at hk; omega
  rcases this with rfl | rfl | rfl | rfl <;> rfl

/-- The filter accepts rows 0 and 1 of four; the second node ends with the values of row 3, which the filter refused. -/
theorem refused_row_stored :
    (arrayToCatalog demo (some (fun i => decide (i < 2))) none (fun _ => false) 7 noFields).1.2 = [7, 8] ∧
    (arrayToCatalog demo (some (fun i => decide (i < 2))) none (fun _ => false) 7 noFields).1.1.vals 8 "x" =
      [("survey", 3, none)] := by decide +kernel

/-- A row that matches no node overwrites the last node left, whatever that held. -/
theorem unmatched_row_stored :
    (arrayToNodes { demo with nrows := 1 } (some (fun _ _ => false)) [5, 6] noFields).2 = .ok () ∧
    (arrayToNodes { demo with nrows := 1 } (some (fun _ _ => false)) [5, 6] noFields).1.vals 6 "y" = [("survey", 10, none)] := by
  decide +kernel

/-- A structured array of two rows and two columns: the errors of row 1, column 0 are those of row 0, column 1. -/
theorem struct_errors_transposed :
    let inp := { demo with layout := .struct ["a", "b"], nrows := 2, uerr := some (fun c i => 100 * c + i) }
    cellOf inp 0 1 = .ok (1, some (100, 100)) ∧ documented inp 0 1 = some (1, some (1, 1)) := by decide +kernel

/-- With more rows than columns they cannot even be read. -/
theorem struct_errors_fail :
    cellOf { demo with layout := .struct ["a", "b"], uerr := some (fun c i => 100 * c + i) } 0 2 = .error .index := by
  decide +kernel

/-- A converter with `*args` for the first column: the second column's value cannot be stored. -/
theorem star_shifts :
    cellOf { demo with conv := fun c => if c = 0 then .star (fun v _ => v) else .one id } 1 0 = .error .index := by
  decide +kernel

end Verif.ArrayNodes

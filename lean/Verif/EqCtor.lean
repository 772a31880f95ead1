/-!
# Arguments of the equatorial constructors (coords/coordsys.py 1814-1892, 2945-2967) (C146)

Which values reach the setters of right ascension, declination, their errors, epoch and distance.  `V` is any type of argument values;
`kind` says what the constructor can see of one: an equatorial coordinate, a string (its whitespace-separated words), something that
unpacks to a list of values, or neither.  Keyword arguments are an association list with distinct keys, as Python guarantees.
-/

namespace Verif.EqCtor

/-- Keyword names. -/
inductive Key
  | ra | dec | raerr | decerr | epoch | distancepc | distanceau
  | other (s : String)
deriving DecidableEq

inductive Kind (V : Type)
  | obj
  | str (words : List V)
  | seq (vals : List V)
  | scalar

inductive Err
  | value | index | type
deriving DecidableEq

/-- What reaches the setters: `LatLongCoordinates.__init__(ra,dec,raerr,decerr)`, then `epoch`, then at most one distance. -/
structure Given (V : Type) where
  ra : V
  dec : V
  raerr : V
  decerr : V
  epoch : V
  pc : Option V
  au : Option V

/-- The outcome: a copy of the given coordinate (position, errors, epoch, distance as they are), or values for the setters. -/
inductive Outcome (V : Type)
  | copy (o : V)
  | set (g : Given V)

variable {V : Type}

/-- Lookup in keyword arguments. -/
def get (kw : List (Key × V)) (k : Key) : Option V := (kw.find? (fun p => p.1 == k)).map (·.2)

/-- `posargs`, coordsys.py 1833-1868, for arguments that are not a single equatorial coordinate. -/
def posargs (kind : V → Kind V) : List V → Except Err (List (Key × V))
  | [] => .ok []
  | [a] =>
    match kind a with
    | .obj => .ok []
    | .str (r :: d :: _) => .ok [(.ra, r), (.dec, d)]
    | .str _ => .error .index
    | .seq [r, d] => .ok [(.ra, r), (.dec, d)]
    | .seq _ => .error .value
    | .scalar => .error .type
  | [a, b] => .ok [(.ra, a), (.dec, b)]
  | [a, b, c, d] => .ok [(.ra, a), (.dec, b), (.raerr, c), (.decerr, d)]
  | [a, b, c, d, e] => .ok [(.ra, a), (.dec, b), (.raerr, c), (.decerr, d), (.epoch, e)]
  | [a, b, c, d, e, f] => .ok [(.ra, a), (.dec, b), (.raerr, c), (.decerr, d), (.epoch, e), (.distancepc, f)]
  | _ => .ok []

/-- `kwargs.setdefault(k, v)` and then reading `kwargs[k]`. -/
def setdefault (kw : List (Key × V)) (k : Key) (v : V) : V := (get kw k).getD v

/-- The defaults: `0`, `None` and `2000`. -/
structure Consts (V : Type) where
  zero : V
  none : V
  e2000 : V

/-- Whether a single positional argument is an equatorial coordinate (1836). -/
def copied (kind : V → Kind V) : List V → Option V
  | [a] => match kind a with
    | .obj => some a
    | _ => none
  | _ => none

/-- `EquatorialCoordinatesBase.__init__`, coordsys.py 1814-1892. -/
def init (c : Consts V) (kind : V → Kind V) (args : List V) (kw : List (Key × V)) : Except Err (Outcome V) :=
  match copied kind args with
  | some o => .ok (.copy o)
  | none =>
    match posargs kind args with
    | .error e => .error e
    | .ok pos =>
      if pos.any (fun p => (get kw p.1).isSome) then .error .value
      else
        let all := pos ++ kw
        if (get all .distancepc).isSome && (get all .distanceau).isSome then .error .type
        else .ok (.set ⟨setdefault all .ra c.zero, setdefault all .dec c.zero, setdefault all .raerr c.none, setdefault all .decerr c.none,
          setdefault all .epoch c.e2000, get all .distancepc, get all .distanceau⟩)

/-- `FK4Coordinates.__init__`, coordsys.py 2945-2967, on the epoch that ends up stored: any epoch equal to 2000 becomes 1950. -/
def fk4Epoch (is2000 : V → Bool) (e1950 : V) (stored : V) : V := if is2000 stored then e1950 else stored

/-! ## Specification -/

/-- The documented forms: which position holds which value. -/
def position : Key → Option Nat
  | .ra => some 0
  | .dec => some 1
  | .raerr => some 2
  | .decerr => some 3
  | .epoch => some 4
  | .distancepc => some 5
  | _ => none

/-- The positional values a call supplies: those listed when there are 2, 4, 5 or 6 of them; the two parts of a string or pair. -/
def values (kind : V → Kind V) (args : List V) : List V :=
  match args with
  | [a] => match kind a with
    | .str (r :: d :: _) => [r, d]
    | .seq l => l
    | _ => []
  | l => if l.length = 2 ∨ l.length = 4 ∨ l.length = 5 ∨ l.length = 6 then l else []

/-- The value the call gives a name: positional or keyword. -/
def meant (kind : V → Kind V) (args : List V) (kw : List (Key × V)) (k : Key) : Option V :=
  match (position k).bind (fun i => (values kind args)[i]?) with
  | some v => some v
  | none => get kw k

/-- Whether a single argument is unusable, and how. -/
def unusable (kind : V → Kind V) : List V → Option Err
  | [a] => match kind a with
    | .str w => if w.length < 2 then some .index else none
    | .seq l => if l.length = 2 then none else some .value
    | .scalar => some .type
    | .obj => none
  | _ => none

/-- A name given twice. -/
def Twice (kind : V → Kind V) (args : List V) (kw : List (Key × V)) : Prop :=
  ∃ k i, position k = some i ∧ i < (values kind args).length ∧ (get kw k).isSome

/-! ## Proofs -/

theorem get_cons (k k' : Key) (v : V) (kw : List (Key × V)) : get ((k, v) :: kw) k' = if k = k' then some v else get kw k' := by
  unfold get
  by_cases h : k = k'
  · simp [h]
  · simp [h]

@[simp] theorem get_nil (k : Key) : get ([] : List (Key × V)) k = none := rfl

/-- The names in positional order. -/
def names : List Key := [.ra, .dec, .raerr, .decerr, .epoch, .distancepc]

theorem posargs_eq (kind : V → Kind V) (args : List V) (hc : copied kind args = none) :
    posargs kind args = match unusable kind args with
      | some e => .error e
      | none => .ok (names.zip (values kind args)) := by
  match args, hc with
  | [], _ => rfl
  | [a], hc =>
    cases hk : kind a with
    | obj => simp [copied, hk] at hc
    | scalar => simp [posargs, unusable, hk]
    | str w => match w with
      | [] => simp [posargs, unusable, hk]
      | [x] => simp [posargs, unusable, hk]
      | x :: y :: t =>
        have h : ¬ ((x :: y :: t).length < 2) := by simp
        simp only [posargs, unusable, values, hk, names, if_neg h]; rfl
    | seq w => match w with
      | [] => simp [posargs, unusable, hk]
      | [x] => simp [posargs, unusable, hk]
      | [x, y] => simp [posargs, unusable, values, hk, names]
      | x :: y :: z :: t => simp [posargs, unusable, hk]
  | [a, b], _ => simp [posargs, unusable, values, names]
  | [a, b, c], _ => simp [posargs, unusable, values]
  | [a, b, c, d], _ => simp [posargs, unusable, values, names]
  | [a, b, c, d, e], _ => simp [posargs, unusable, values, names]
  | [a, b, c, d, e, f], _ => simp [posargs, unusable, values, names]
  | a :: b :: c :: d :: e :: f :: g :: t, _ =>
    have : values kind (a :: b :: c :: d :: e :: f :: g :: t) = [] := by
      simp [values]
    simp [posargs, unusable, this]

theorem values_le (kind : V → Kind V) (args : List V) (hu : unusable kind args = none) :
    (values kind args).length ≤ 6 := by
  match args, hu with
  | [], _ => simp [values]
  | [a], hu =>
    cases hk : kind a with
    | obj => simp [values, hk]
    | scalar => simp [values, hk]
    | str w => match w with
      | [] => simp [values, hk]
      | [x] => simp [values, hk]
      | x :: y :: t => simp [values, hk]
    | seq w =>
      simp only [values, hk]
      by_cases h : w.length = 2
      · omega
      · simp [unusable, hk, h] at hu
  | a :: b :: t, _ =>
    simp only [values]
    split
    · omega
    · simp

theorem get_zip (l : List V) (kw : List (Key × V)) (k : Key) :
    get (names.zip l ++ kw) k = match (position k).bind (fun i => l[i]?) with
      | some v => some v
      | none => get kw k := by
  match l with
  | [] => cases k <;> simp [names, position]
  | [a] => cases k <;> simp [names, position, get_cons]
  | [a, b] => cases k <;> simp [names, position, get_cons]
  | [a, b, c] => cases k <;> simp [names, position, get_cons]
  | [a, b, c, d] => cases k <;> simp [names, position, get_cons]
  | [a, b, c, d, e] => cases k <;> simp [names, position, get_cons]
  | a :: b :: c :: d :: e :: f :: t => cases k <;> simp [names, position, get_cons]

theorem twice_iff (kind : V → Kind V) (args : List V) (kw : List (Key × V)) :
    ((names.zip (values kind args)).any (fun p => (get kw p.1).isSome) = true) ↔ Twice kind args kw := by
  unfold Twice
  rw [List.any_eq_true]
  constructor
  · rintro ⟨⟨k, v⟩, hm, hg⟩
    obtain ⟨i, hi, he⟩ := List.getElem_of_mem hm
    rw [List.getElem_zip] at he
    rw [List.length_zip] at hi
    have h1 : names[i]'(by omega) = k := congrArg Prod.fst he
    refine ⟨k, i, ?_, by omega, hg⟩
    subst h1
    have : i < 6 := by simp [names] at hi; omega
    match i, this with
    | 0, _ => rfl
    | 1, _ => rfl
    | 2, _ => rfl
    | 3, _ => rfl
    | 4, _ => rfl
    | 5, _ => rfl
  · rintro ⟨k, i, hp, hi, hg⟩
    have hn : ∃ h : i < names.length, names[i] = k := by
      cases k <;> simp [position] at hp <;> subst hp <;> exact ⟨by decide, rfl⟩
    obtain ⟨h, hk⟩ := hn
    refine ⟨(k, (values kind args)[i]), ?_, hg⟩
    rw [List.mem_iff_getElem]
    exact ⟨i, by rw [List.length_zip]; omega, by rw [List.getElem_zip, hk]⟩

open Classical in
/-- What the call means. -/
noncomputable def intended (c : Consts V) (kind : V → Kind V) (args : List V) (kw : List (Key × V)) : Except Err (Outcome V) :=
  if Twice kind args kw then .error .value
  else if (meant kind args kw .distancepc).isSome ∧ (meant kind args kw .distanceau).isSome then .error .type
  else .ok (.set ⟨(meant kind args kw .ra).getD c.zero, (meant kind args kw .dec).getD c.zero, (meant kind args kw .raerr).getD c.none,
    (meant kind args kw .decerr).getD c.none, (meant kind args kw .epoch).getD c.e2000, meant kind args kw .distancepc,
    meant kind args kw .distanceau⟩)

/-- C146: the whole behaviour of the constructor on its arguments: a single equatorial coordinate (of any class) is copied, whatever else is
given by keyword; otherwise an unusable single argument, a name given twice and two distances raise in this order, and every setter
receives the value the call means for it, or the default 0, None or 2000. -/
theorem init_exact (c : Consts V) (kind : V → Kind V) (args : List V) (kw : List (Key × V)) :
    (∀ o, args = [o] → kind o = .obj → init c kind args kw = .ok (.copy o)) ∧
    ((∀ o, args = [o] → kind o ≠ .obj) →
      (∀ e, unusable kind args = some e → init c kind args kw = .error e) ∧
      (unusable kind args = none → init c kind args kw = intended c kind args kw)) := by
  constructor
  · rintro o rfl ho
    simp [init, copied, ho]
  · intro hno
    have hc : copied kind args = none := by
      match args, hno with
      | [], _ => rfl
      | [a], h =>
        cases hk : kind a with
        | obj => exact absurd hk (h a rfl)
        | _ => simp [copied, hk]
      | _ :: _ :: _, _ => rfl
    have hp := posargs_eq kind args hc
    constructor
    · intro e he
      rw [he] at hp
      simp only [init, hc, hp]
    · intro hu
      rw [hu] at hp
      simp only [init, hc, hp, intended]
      have hg : ∀ k, get (names.zip (values kind args) ++ kw) k = meant kind args kw k := fun k => get_zip _ _ _
      by_cases ht : Twice kind args kw
      · simp [(twice_iff kind args kw).2 ht, ht]
      · simp only [if_neg (fun h => ht ((twice_iff kind args kw).1 h)), if_neg ht, setdefault, hg, Bool.and_eq_true]

/-- C146: three positional arguments, or more than six, are silently dropped: the coordinate is what the keywords alone give, (0, 0) at
2000 without any. -/
theorem dropped_arguments (c : Consts V) (kind : V → Kind V) (args : List V) (kw : List (Key × V)) (h : args.length = 3 ∨ 6 < args.length) :
    init c kind args kw = init c kind [] kw := by
  match args, h with
  | [a, b, d], _ => rfl
  | a :: b :: d :: e :: f :: g :: x :: t, _ => rfl
  | [], h => rfl
  | [_], h => simp at h
  | [_, _], h => simp at h
  | [_, _, _, _], h => simp at h
  | [_, _, _, _, _], h => simp at h
  | [_, _, _, _, _, _], h => simp at h

/-- C146: a keyword the constructor does not know is silently ignored, wherever it stands. -/
theorem unknown_ignored (c : Consts V) (kind : V → Kind V) (args : List V) (kw kw' : List (Key × V)) (s : String) (v : V) :
    init c kind args (kw ++ (.other s, v) :: kw') = init c kind args (kw ++ kw') := by
  have hg : ∀ k, (∀ t, k ≠ .other t) → get (kw ++ (.other s, v) :: kw') k = get (kw ++ kw') k := by
    intro k hk
    induction kw with
    | nil => simp [get_cons, hk s, Ne.symm (hk s)]
    | cons p t ih => simp only [List.cons_append]; rw [get_cons, get_cons, ih]
  have hp : ∀ k i, position k = some i → ∀ t, k ≠ .other t := by
    intro k i h t hk; subst hk; simp [position] at h
  have hm : ∀ k, (∀ t, k ≠ .other t) → meant kind args (kw ++ (.other s, v) :: kw') k = meant kind args (kw ++ kw') k := by
    intro k hk; simp only [meant, hg k hk]
  have ht : Twice kind args (kw ++ (.other s, v) :: kw') ↔ Twice kind args (kw ++ kw') := by
    unfold Twice
    constructor
    · rintro ⟨k, i, a, b, d⟩; exact ⟨k, i, a, b, by rw [← hg k (hp k i a)]; exact d⟩
    · rintro ⟨k, i, a, b, d⟩; exact ⟨k, i, a, b, by rw [hg k (hp k i a)]; exact d⟩
  have hi : intended c kind args (kw ++ (.other s, v) :: kw') = intended c kind args (kw ++ kw') := by
    unfold intended
    by_cases h : Twice kind args (kw ++ kw')
    · rw [if_pos h, if_pos (ht.2 h)]
    · rw [if_neg h, if_neg (fun x => h (ht.1 x))]
      simp only [hm .ra (by simp), hm .dec (by simp), hm .raerr (by simp), hm .decerr (by simp), hm .epoch (by simp),
        hm .distancepc (by simp), hm .distanceau (by simp)]
  obtain ⟨a1, a2⟩ := init_exact c kind args (kw ++ (.other s, v) :: kw')
  obtain ⟨b1, b2⟩ := init_exact c kind args (kw ++ kw')
  by_cases ho : ∃ o, args = [o] ∧ kind o = .obj
  · obtain ⟨o, h1, h2⟩ := ho
    rw [a1 o h1 h2, b1 o h1 h2]
  · have hno : ∀ o, args = [o] → kind o ≠ .obj := fun o h1 h2 => ho ⟨o, h1, h2⟩
    cases hu : unusable kind args with
    | some e => rw [(a2 hno).1 e hu, (b2 hno).1 e hu]
    | none => rw [(a2 hno).2 hu, (b2 hno).2 hu, hi]

/-- C146: the keyword form and the positional form agree: giving the six values by position or by name is the same. -/
theorem positional_eq_keyword (c : Consts V) (kind : V → Kind V) (a b d e f g : V) :
    init c kind [a, b, d, e, f, g] [] =
      init c kind [] [(.ra, a), (.dec, b), (.raerr, d), (.decerr, e), (.epoch, f), (.distancepc, g)] := rfl

/-- C146: an FK4 coordinate never has the epoch 2000: asking for it, or for nothing, gives 1950; any other epoch is kept. -/
theorem fk4_epoch (is2000 : V → Bool) (e1950 : V) (h : is2000 e1950 = false) (stored : V) :
    is2000 (fk4Epoch is2000 e1950 stored) = false ∧ (is2000 stored = true → fk4Epoch is2000 e1950 stored = e1950) ∧
    (is2000 stored = false → fk4Epoch is2000 e1950 stored = stored) := by
  cases hs : is2000 stored <;> simp [fk4Epoch, hs, h]

/-! ## Examples -/

/-- Three numbers are dropped. -/
example : ∃ g, init ⟨0, -1, 2000⟩ (fun _ => Kind.scalar) [10, 20, (1975 : Int)] [] = .ok (.set g) ∧ g.ra = 0 ∧ g.dec = 0 ∧ g.epoch = 2000 :=
  ⟨_, rfl, rfl, rfl, rfl⟩

/-- A name given twice. -/
example : init ⟨0, -1, 2000⟩ (fun _ => Kind.scalar) [10, (20 : Int)] [(.dec, 5)] = .error .value := rfl

/-- Two distances. -/
example : init ⟨0, -1, 2000⟩ (fun _ => Kind.scalar) [10, 20, 0, 0, 2000, (3 : Int)] [(.distanceau, 5)] = .error .type := rfl

end Verif.EqCtor

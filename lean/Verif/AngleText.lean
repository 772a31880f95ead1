import Verif.AngleParseProps
import Verif.AngleDms

/-!
# Angles as strings, and back (astropysics/coords/coordsys.py 404-405, 458-596, 1469-1479) (C170)

`getDmsStr`, `getHmsStr`, `str(angle)` and `LatLongCoordinates.getCoordinateString` up to the characters, with a seconds format `%0w.pf`.
Not modelled: other formats of the seconds (so also the default of `getHmsStr`, which is `str(s)`).
-/

namespace Verif.AngleText

open Verif.Angle Verif.AngleParse

noncomputable section

/-- The exceptions: IndexError, TypeError. -/
inductive TErr
  | index | type
  deriving DecidableEq

/-- A digit. -/
def digitChar (k : ℕ) : Char := Char.ofNat (48 + k)

/-- `str(n)` of a natural number. -/
def digitsOf (n : ℕ) : Text := if n < 10 then [digitChar n] else digitsOf (n / 10) ++ [digitChar (n % 10)]
termination_by n

/-- The last `p` digits. -/
def lastDigits : ℕ → ℕ → Text
  | 0, _ => []
  | p + 1, r => lastDigits p (r / 10) ++ [digitChar (r % 10)]

/-- `'%0w.pf'` of `k/10^p`. -/
def secText (w p k : ℕ) : Text :=
  let t := digitsOf (k / 10 ^ p) ++ (if p = 0 then [] else '.' :: lastDigits p (k % 10 ^ p))
  List.replicate (w - t.length) '0' ++ t

/-- `str` of an integer. -/
def intText (n : ℤ) : Text := if n < 0 then '-' :: digitsOf n.natAbs else digitsOf n.natAbs

/-- The same for a number of seconds of any sign: the width counts the minus sign. -/
def secIntText (w p : ℕ) (k : ℤ) : Text := if k < 0 then '-' :: secText (w - 1) p k.natAbs else secText w p k.natAbs

/-- The argument `sep`. -/
inductive Sep
  | text (t : Text)
  | parts (l : List Text)

/-- The separators, coordsys.py 499-502: for the documented word (`dms` or `hms`) the pair made of the tuple itself twice, whose elements are no
strings (`none`). -/
def sepList (word : Text) : Sep → List (Option Text)
  | .text t => if t = word then [none, none] else [some t, some t]
  | .parts l => l.map some

/-- A number and its separator, coordsys.py 511-517. -/
def field (inclzero : Bool) (n : Text) (i : ℕ) (sep : List (Option Text)) : Except TErr (List (Option Text)) :=
  if inclzero = true ∨ n ≠ "0".toList then
    match sep[i]? with
    | none => .error .index
    | some x => .ok [some n, x]
  else .ok []

/-- `''.join`: TypeError if something is no string. -/
def joinAll : List (Option Text) → Except TErr Text
  | [] => .ok []
  | none :: _ => .error .type
  | some t :: l => match joinAll l with
    | .error e => .error e
    | .ok r => .ok (t ++ r)

/-- Everything after the numbers are known, coordsys.py 499-523, 573-596. -/
def assemble (word pre : Text) (sep : Sep) (inclzero : Bool) (d m s : Text) : Except TErr Text :=
  let sl := sepList word sep
  match field inclzero d 0 sl with
  | .error e => .error e
  | .ok f1 => match field inclzero m 1 sl with
    | .error e => .error e
    | .ok f2 => joinAll ([some pre] ++ f1 ++ f2 ++ [some s] ++ (match sl[2]? with
      | none => []
      | some x => [x]))

/-- `getDmsStr`, coordsys.py 458-523, with the format `%0w.pf`. -/
def dmsText (rnd : ℝ → ℤ) (w p : ℕ) (sep : Sep) (sign canonical inclzero : Bool) (a : AC) : Except TErr Text :=
  let w' := if canonical then 5 else w
  let p' := if canonical then 2 else p
  let sep' := if canonical then .parts [":".toList, ":".toList, []] else sep
  let x := Angle.getDmsStr rnd p' a
  let pre := if x.neg then "-".toList else if sign || canonical then "+".toList else []
  assemble "dms".toList pre sep' inclzero (digitsOf x.deg.natAbs) (intText x.min) (secIntText w' p' x.sec)

/-- `str(angle)`, coordsys.py 404-405. -/
def angleStr (rnd : ℝ → ℤ) (a : AC) : Except TErr Text := dmsText rnd 5 2 (.parts ["d".toList, "'".toList, "\"".toList]) true false true a

/-- `getHmsStr`, coordsys.py 525-596, with the format `%0w.pf`. -/
def hmsText (rnd : ℝ → ℤ) (w p : ℕ) (sep : Sep) (canonical inclzero : Bool) (a : AC) : Except TErr Text :=
  let w' := if canonical then 5 else w
  let p' := if canonical then 2 else p
  let sep' := if canonical then .parts [":".toList, ":".toList, []] else sep
  let x := Angle.getHmsStr rnd p' a
  assemble "hms".toList [] sep' inclzero (intText x.1) (intText x.2.1) (secIntText w' p' x.2.2)

/-- `getCoordinateString`, coordsys.py 1469-1479: `getHmsStr` has no argument `sign`, so `hmslong=True` is a TypeError; `labels` is not used. -/
def coordString (rnd : ℝ → ℤ) (degSign sep longName latName : Text) (_labels canonical hmslong : Bool) (lat long : AC) : Except TErr Text :=
  if hmslong then .error .type
  else match dmsText rnd 5 2 (.parts [degSign, "'".toList, "\"".toList]) false canonical true long with
    | .error e => .error e
    | .ok lo => match dmsText rnd 5 2 (.parts [degSign, "'".toList, "\"".toList]) true canonical true lat with
      | .error e => .error e
      | .ok la => .ok (longName ++ "=".toList ++ lo ++ sep ++ latName ++ "=".toList ++ la)

/-! ## Digits -/

theorem digitChar_spec : ∀ k < 10, (digitChar k).isDigit = true ∧ (digitChar k).toNat - 48 = k := by decide

theorem natVal_snoc (t : Text) (c : Char) : natVal (t ++ [c]) = 10 * natVal t + (c.toNat - 48) := by simp [natVal, List.foldl_append]

theorem digitsOf_spec (n : ℕ) : digitsOf n ≠ [] ∧ (∀ c ∈ digitsOf n, c.isDigit = true) ∧ natVal (digitsOf n) = n := by
  induction n using Nat.strong_induction_on with
  | _ n ih =>
    rw [digitsOf]
    by_cases h : n < 10
    · rw [if_pos h]
      obtain ⟨h1, h2⟩ := digitChar_spec n h
      refine ⟨by simp, by simpa using h1, ?_⟩
      have := natVal_snoc [] (digitChar n)
      simpa [natVal, h2] using this
    · rw [if_neg h]
      obtain ⟨h1, h2, h3⟩ := ih (n / 10) (by omega)
      obtain ⟨h4, h5⟩ := digitChar_spec (n % 10) (by omega)
      refine ⟨by simp, ?_, ?_⟩
      · intro c hc
        rcases List.mem_append.1 hc with hc | hc
        · exact h2 c hc
        · rw [List.mem_singleton] at hc; rw [hc]; exact h4
      · rw [natVal_snoc, h3, h5]; omega

theorem lastDigits_spec (p : ℕ) : ∀ r, r < 10 ^ p → (lastDigits p r).length = p ∧ (∀ c ∈ lastDigits p r, c.isDigit = true) ∧ natVal (lastDigits p r) = r := by
  induction p with
  | zero => intro r hr; simp [lastDigits, natVal]; omega
  | succ p ih =>
    intro r hr
    rw [pow_succ] at hr
    obtain ⟨h1, h2, h3⟩ := ih (r / 10) (by omega)
    obtain ⟨h4, h5⟩ := digitChar_spec (r % 10) (by omega)
    rw [lastDigits]
    refine ⟨by simp [h1], ?_, ?_⟩
    · intro c hc
      rcases List.mem_append.1 hc with hc | hc
      · exact h2 c hc
      · rw [List.mem_singleton] at hc; rw [hc]; exact h4
    · rw [natVal_snoc, h3, h5]; omega

theorem natVal_zeros (k : ℕ) (t : Text) : natVal (List.replicate k '0' ++ t) = natVal t := by
  induction k with
  | zero => rfl
  | succ k ih =>
    rw [List.replicate_succ, List.cons_append]
    have : natVal ('0' :: (List.replicate k '0' ++ t)) = natVal (List.replicate k '0' ++ t) := rfl
    rw [this, ih]

/-- The seconds are a numeral of the right value. -/
theorem secText_spec (w p k : ℕ) : IsNum (secText w p k) ∧ numVal (secText w p k) = (k : ℝ) / 10 ^ p := by
  obtain ⟨h1, h2, h3⟩ := digitsOf_spec (k / 10 ^ p)
  have hlt : k % 10 ^ p < 10 ^ p := Nat.mod_lt _ (by positivity)
  obtain ⟨l1, l2, l3⟩ := lastDigits_spec p (k % 10 ^ p) hlt
  have hz : ∀ n, ∀ c ∈ List.replicate n '0' ++ digitsOf (k / 10 ^ p), Char.isDigit c = true := by
    intro n c hc
    rcases List.mem_append.1 hc with hc | hc
    · rw [(List.mem_replicate.1 hc).2]; decide
    · exact h2 c hc
  have hk : ((k / 10 ^ p : ℕ) : ℝ) + ((k % 10 ^ p : ℕ) : ℝ) / 10 ^ p = (k : ℝ) / 10 ^ p := by
    have h := Nat.div_add_mod k (10 ^ p)
    have h' : ((10 ^ p : ℕ) : ℝ) * ((k / 10 ^ p : ℕ) : ℝ) + ((k % 10 ^ p : ℕ) : ℝ) = (k : ℝ) := by exact_mod_cast h
    rw [← h']
    push_cast
    field_simp
  unfold secText
  simp only
  generalize w - _ = n
  by_cases hp : p = 0
  · subst hp
    simp only [if_true, List.append_nil]
    refine ⟨⟨_, [], (fun h => h1 (List.append_eq_nil_iff.1 h).2), hz n, by simp, .inl rfl⟩, ?_⟩
    rw [(numVal_digits _ '0' (hz n) (by decide)).2.2.1, natVal_zeros, h3]
    simp
  · simp only [if_neg hp]
    rw [← List.append_assoc]
    refine ⟨⟨_, lastDigits p (k % 10 ^ p), by simp [h1], hz n, l2, .inr rfl⟩, ?_⟩
    rw [(numVal_digits _ '0' (hz n) (by decide)).2.2.2, natVal_zeros, h3, l3, l1, hk]

/-- C170.  The seconds have exactly `p` digits after the point and are filled with zeros to the width `w`, no further. -/
theorem secText_shape (w p k : ℕ) : ∃ n fp, secText w p k = List.replicate n '0' ++ digitsOf (k / 10 ^ p) ++ (if p = 0 then [] else '.' :: fp) ∧ fp.length = p ∧
    (secText w p k).length = max w ((digitsOf (k / 10 ^ p)).length + if p = 0 then 0 else p + 1) := by
  obtain ⟨l1, -, -⟩ := lastDigits_spec p (k % 10 ^ p) (Nat.mod_lt _ (by positivity))
  refine ⟨w - (digitsOf (k / 10 ^ p) ++ (if p = 0 then [] else '.' :: lastDigits p (k % 10 ^ p))).length, lastDigits p (k % 10 ^ p), ?_, l1, ?_⟩
  · unfold secText
    simp only
    rw [List.append_assoc]
  · unfold secText
    simp only [List.length_append, List.length_replicate]
    by_cases hp : p = 0
    · simp only [if_pos hp, List.length_nil]; omega
    · simp only [if_neg hp, List.length_cons, l1]; omega

theorem digitsOf_num (n : ℕ) : IsNum (digitsOf n) ∧ numVal (digitsOf n) = n := by
  obtain ⟨h1, h2, h3⟩ := digitsOf_spec n
  exact ⟨⟨_, [], h1, h2, by simp, .inl rfl⟩, by rw [(numVal_digits _ '0' h2 (by decide)).2.2.1, h3]⟩

theorem digitsOf_zero (n : ℕ) : digitsOf n = "0".toList ↔ n = 0 := by
  constructor
  · intro h
    have := (digitsOf_spec n).2.2
    rw [h] at this
    simpa [natVal] using this.symm
  · rintro rfl; rw [digitsOf]; rfl

/-! ## The texts -/

theorem assemble_parts (word pre : Text) (inclzero : Bool) (x y z d m s : Text) (h : inclzero = true ∨ (d ≠ "0".toList ∧ m ≠ "0".toList)) :
    assemble word pre (.parts [x, y, z]) inclzero d m s = .ok (pre ++ (d ++ (x ++ (m ++ (y ++ (s ++ z)))))) := by
  have hd : inclzero = true ∨ d ≠ "0".toList := h.imp id And.left
  have hm : inclzero = true ∨ m ≠ "0".toList := h.imp id And.right
  simp only [assemble, sepList, List.map_cons, List.map_nil, field, if_pos hd, if_pos hm, List.getElem?_cons_zero, List.getElem?_cons_succ]
  simp [joinAll]

/-- C170.  The text with three separators: sign, degrees, minutes and seconds, each followed by its separator. -/
theorem dmsText_exact {rnd : ℝ → ℤ} (hr : Nearest rnd) (w p : ℕ) (x y z : Text) (sign : Bool) (a : AC) :
    dmsText rnd w p (.parts [x, y, z]) sign false true a =
      .ok (signText (if (Angle.getDmsStr rnd p a).neg then some '-' else if sign then some '+' else none) ++
        digitsOf (Angle.getDmsStr rnd p a).deg.natAbs ++ x ++ digitsOf (Angle.getDmsStr rnd p a).min.natAbs ++ y ++
        secText w p (Angle.getDmsStr rnd p a).sec.natAbs ++ z) := by
  obtain ⟨h1, h2, h3, h4, h5⟩ := dmsStr_fields hr p a
  unfold dmsText
  simp only [Bool.false_eq_true, if_false, Bool.or_false]
  rw [assemble_parts _ _ _ _ _ _ _ _ _ (.inl rfl)]
  simp only [intText, if_neg (not_lt.2 h2), secIntText, if_neg (not_lt.2 h4)]
  cases (Angle.getDmsStr rnd p a).neg <;> cases sign <;> simp [signText]

theorem signed_value (p : ℕ) (x : Printed) (h1 : 0 ≤ x.deg) (h2 : 0 ≤ x.min) (h4 : 0 ≤ x.sec) (b : Bool) :
    signed (if x.neg then some '-' else if b then some '+' else none) ((x.deg.natAbs : ℝ) + (x.min.natAbs : ℝ) / 60 + (x.sec.natAbs : ℝ) / 10 ^ p / 3600) = x.value p := by
  have e : ∀ n : ℤ, 0 ≤ n → ((n.natAbs : ℕ) : ℝ) = (n : ℝ) := by
    intro n hn
    have : ((n.natAbs : ℕ) : ℤ) = n := Int.natAbs_of_nonneg hn
    rw [← Int.cast_natCast, this]
  rw [e _ h1, e _ h2, e _ h4]
  unfold signed Printed.value
  cases x.neg <;> cases b <;> simp

theorem sign_ok (n b : Bool) : IsSign (if n then some '-' else if b then some '+' else none) := by
  cases n <;> cases b <;> simp [IsSign]

theorem tail_ok {m s : Text} {y z : Text} (hm : IsNum m) (hs : IsNum s) (hy : y ∈ marks2) (hz : z ∈ marks3) : TailOk (some (m, y)) (some (s, z)) := by
  constructor
  · intro t m' e
    simp only [Option.some.injEq, Prod.mk.injEq] at e
    obtain ⟨rfl, rfl⟩ := e
    exact ⟨hm, hy⟩
  · intro t m' e
    simp only [Option.some.injEq, Prod.mk.injEq] at e
    obtain ⟨rfl, rfl⟩ := e
    exact ⟨hs, hz⟩

/-- A text whose ends are no blanks. -/
theorem strip_of_ends {t : Text} (h1 : ∀ c, t.head? = some c → isSpace c = false) (h2 : ∀ c, t.getLast? = some c → isSpace c = false) : strip t = t := by
  have := strip_pad (a := []) (b := []) (by simp) (by simp) h1 h2
  simpa using this

theorem digit_not_space {c : Char} (h : c.isDigit = true) : isSpace c = false := by
  unfold isSpace
  have hne : ∀ x ∈ [' ', '\t', '\n', '\r', '\x0b', '\x0c'], Char.isDigit x = false := by decide
  have : ∀ x ∈ [' ', '\t', '\n', '\r', '\x0b', '\x0c'], c ≠ x := by
    intro x hx e
    rw [e, hne x hx] at h
    simp at h
  simp only [List.mem_cons, List.not_mem_nil, or_false, forall_eq_or_imp, forall_eq] at this
  simp [this.1, this.2.1, this.2.2.1, this.2.2.2.1, this.2.2.2.2.1, this.2.2.2.2.2]

theorem last_num {t : Text} (h : IsNum t) : ∀ c, t.getLast? = some c → isSpace c = false := by
  intro c hc
  have := h.chars c (List.mem_of_getLast? hc)
  unfold numChar at this
  rw [Bool.or_eq_true, decide_eq_true_eq] at this
  rcases this with h | rfl
  · exact digit_not_space h
  · decide

/-- A printed text begins with its sign or a digit and ends with the seconds or their mark. -/
theorem strip_printed {sg : Option Char} {d r s z : Text} (hs : IsSign sg) (hd : IsNum d) (hn : IsNum s) (hz : z ∈ marks3) :
    strip (signText sg ++ d ++ r ++ s ++ z) = signText sg ++ d ++ r ++ s ++ z := by
  refine strip_of_ends ?_ ?_
  · intro c hc
    obtain ⟨x, u, rfl, hx⟩ := hd.head
    rcases hs with rfl | rfl | rfl
    · simp only [signText, List.nil_append, List.cons_append, List.head?_cons, Option.some.injEq] at hc
      exact hc ▸ digit_not_space hx
    · simp only [signText, List.cons_append, List.head?_cons, Option.some.injEq] at hc
      rw [← hc]; decide
    · simp only [signText, List.cons_append, List.head?_cons, Option.some.injEq] at hc
      rw [← hc]; decide
  · intro c hc
    simp only [marks3, List.mem_cons, List.not_mem_nil, or_false] at hz
    rcases hz with rfl | rfl | rfl
    · rw [List.getLast?_append] at hc
      have : c = 's' := by simpa using hc.symm
      rw [this]; decide
    · rw [List.getLast?_append] at hc
      have : c = '"' := by simpa using hc.symm
      rw [this]; decide
    · rw [List.append_nil, List.getLast?_append] at hc
      obtain ⟨x, u, e, -⟩ := hn.head
      cases hl : s.getLast? with
      | none => rw [List.getLast?_eq_none_iff] at hl; rw [hl] at e; simp at e
      | some y =>
        rw [hl] at hc
        simp only [Option.some_or, Option.some.injEq] at hc
        exact last_num hn c (by rw [hl, hc])

/-- C170.  Printed with unit letters (`d` or `degrees`, then `m` or `'`, then `s`, `"` or nothing), an angle is read back as the value that was printed, whatever the
arguments of the constructor. -/
theorem dms_readback {rnd : ℝ → ℤ} (hr : Nearest rnd) (w p : ℕ) {x y z : Text} (hx : (x, Unit'.degrees) ∈ wordUnits) (hy : y ∈ marks2)
    (hz : z ∈ marks3) (sign : Bool) (a : AC) (sghms : Option Bool) (radians : Bool) :
    ∃ t, dmsText rnd w p (.parts [x, y, z]) sign false true a = .ok t ∧
      parse sghms radians t = .ok ((Angle.getDmsStr rnd p a).value p, .degrees) := by
  obtain ⟨h1, h2, h3, h4, h5⟩ := dmsStr_fields hr p a
  refine ⟨_, dmsText_exact hr w p x y z sign a, ?_⟩
  set q := Angle.getDmsStr rnd p a with hq
  obtain ⟨d1, d2⟩ := digitsOf_num q.deg.natAbs
  obtain ⟨m1, m2⟩ := digitsOf_num q.min.natAbs
  obtain ⟨s1, s2⟩ := secText_spec w p q.sec.natAbs
  rw [with_unit sghms radians (sign_ok q.neg sign) d1 hx (tail_ok m1 s1 hy hz) ?_]
  · simp only [part, d2, m2, s2]
    rw [signed_value p q h1 h2 h4]
  · have := strip_printed (r := x ++ digitsOf q.min.natAbs ++ y) (sign_ok q.neg sign) d1 s1 hz
    simp only [partText, List.append_assoc] at this ⊢
    exact this

/-- C170.  `str(angle)` is read back as the angle within half a hundredth of an arcsecond, except where the printing itself is wrong (C26). -/
theorem str_readback {rnd : ℝ → ℤ} (hr : Nearest rnd) (a : AC) (sghms : Option Bool) (radians : Bool) (h : ¬ CarryIntoNegativeDegrees rnd 2 a) :
    ∃ t v, angleStr rnd a = .ok t ∧ parse sghms radians t = .ok (v, .degrees) ∧ |v - degrees a| ≤ 1 / 2 / 10 ^ 2 / 3600 := by
  obtain ⟨t, ht, hp⟩ := dms_readback hr 5 2 (x := "d".toList) (y := "'".toList) (z := "\"".toList) (by decide) (by decide) (by decide) true a sghms radians
  exact ⟨t, _, ht, hp, dmsStr_value hr 2 a h⟩

/-- C170.  The canonical text (with colons) always has a sign, so it is read back as degrees unless hours are asked for. -/
theorem canonical_readback {rnd : ℝ → ℤ} (hr : Nearest rnd) (w p : ℕ) (sep : Sep) (sign : Bool) (a : AC) (sghms : Option Bool) (radians : Bool) :
    ∃ t, dmsText rnd w p sep sign true true a = .ok t ∧
      parse sghms radians t = .ok ((Angle.getDmsStr rnd 2 a).value 2, if sghms = some true then .hours else .degrees) := by
  obtain ⟨h1, h2, h3, h4, h5⟩ := dmsStr_fields hr 2 a
  set q := Angle.getDmsStr rnd 2 a with hq
  obtain ⟨d1, d2⟩ := digitsOf_num q.deg.natAbs
  obtain ⟨b0, b1, b2⟩ := digitsOf_spec q.min.natAbs
  obtain ⟨m1, m2⟩ := digitsOf_num q.min.natAbs
  obtain ⟨s1, s2⟩ := secText_spec 5 2 q.sec.natAbs
  have ht : dmsText rnd w p sep sign true true a = .ok (signText (if q.neg then some '-' else if true then some '+' else none) ++ digitsOf q.deg.natAbs ++ ":".toList ++
      digitsOf q.min.natAbs ++ ":".toList ++ secText 5 2 q.sec.natAbs) := by
    unfold dmsText
    simp only [if_true, Bool.or_true]
    rw [assemble_parts _ _ _ _ _ _ _ _ _ (.inl rfl)]
    simp only [← hq, intText, if_neg (not_lt.2 h2), secIntText, if_neg (not_lt.2 h4)]
    cases q.neg <;> simp [signText]
  refine ⟨_, ht, ?_⟩
  rw [colons sghms radians (sign_ok q.neg true) d1 b0 b1 s1 ?_]
  · rw [d2, m2, s2, signed_value 2 q h1 h2 h4]
    congr 2
    unfold sexUnit
    cases sghms with
    | none => cases q.neg <;> simp
    | some x => cases x <;> simp
  · have := strip_printed (r := ":".toList ++ digitsOf q.min.natAbs ++ ":".toList) (z := []) (sign_ok q.neg true) d1 s1 (by decide)
    simp only [List.append_assoc, List.append_nil] at this ⊢
    exact this

/-- C170.  Hours, minutes and seconds of an angle that is not negative are read back as the hours printed: with letters always, in the canonical form unless degrees are
asked for. -/
theorem hms_readback {rnd : ℝ → ℤ} (hr : Nearest rnd) (w p : ℕ) (a : AC) (h0 : 0 ≤ degrees a) (sghms : Option Bool) (radians : Bool) :
    (∃ t, hmsText rnd w p (.parts ["h".toList, "m".toList, "s".toList]) false true a = .ok t ∧
      ∃ v n : ℝ, parse sghms radians t = .ok (v, .hours) ∧ (∃ k : ℤ, n = k) ∧ |v + 24 * n - degrees a / 15| ≤ 1 / 2 / 10 ^ p / 3600) ∧
    (∀ sep, ∃ t, hmsText rnd w p sep true true a = .ok t ∧
      ∃ v n : ℝ, parse sghms radians t = .ok (v, if sghms = some false then .degrees else .hours) ∧ (∃ k : ℤ, n = k) ∧
        |v + 24 * n - degrees a / 15| ≤ 1 / 2 / 10 ^ 2 / 3600) := by
  have e : ∀ n : ℤ, 0 ≤ n → ((n.natAbs : ℕ) : ℝ) = (n : ℝ) := by
    intro n hn
    have : ((n.natAbs : ℕ) : ℤ) = n := Int.natAbs_of_nonneg hn
    rw [← Int.cast_natCast, this]
  constructor
  · obtain ⟨h1, h2, h3, h4, h5, n, hn⟩ := hmsStr_nonneg hr p a h0
    set q := Angle.getHmsStr rnd p a with hq
    obtain ⟨d1, d2⟩ := digitsOf_num q.1.natAbs
    obtain ⟨m1, m2⟩ := digitsOf_num q.2.1.natAbs
    obtain ⟨s1, s2⟩ := secText_spec w p q.2.2.natAbs
    have ht : hmsText rnd w p (.parts ["h".toList, "m".toList, "s".toList]) false true a = .ok (signText none ++ digitsOf q.1.natAbs ++ "h".toList ++
        partText (some (digitsOf q.2.1.natAbs, "m".toList)) ++ partText (some (secText w p q.2.2.natAbs, "s".toList))) := by
      unfold hmsText
      simp only [Bool.false_eq_true, if_false]
      rw [assemble_parts _ _ _ _ _ _ _ _ _ (.inl rfl)]
      simp only [← hq, intText, if_neg (not_lt.2 h1), if_neg (not_lt.2 h2), secIntText, if_neg (not_lt.2 h4)]
      simp [signText, partText]
    have hh : ("h".toList, Unit'.hours) ∈ wordUnits := by decide
    have hy : "m".toList ∈ marks2 := by decide
    have hz : "s".toList ∈ marks3 := by decide
    refine ⟨_, ht, _, n, with_unit sghms radians (.inl rfl) d1 hh (tail_ok m1 s1 hy hz) ?_, ⟨n, rfl⟩, ?_⟩
    · have := strip_printed (r := "h".toList ++ digitsOf q.2.1.natAbs ++ "m".toList) (z := "s".toList) (.inl rfl : IsSign none) d1 s1 (by decide)
      simp only [partText, List.append_assoc] at this ⊢
      exact this
    · simp only [part, signed, reduceCtorEq, if_false, d2, m2, s2, e _ h1, e _ h2, e _ h4]
      exact hn
  · intro sep
    obtain ⟨h1, h2, h3, h4, h5, n, hn⟩ := hmsStr_nonneg hr 2 a h0
    set q := Angle.getHmsStr rnd 2 a with hq
    obtain ⟨d1, d2⟩ := digitsOf_num q.1.natAbs
    obtain ⟨b0, b1, b2⟩ := digitsOf_spec q.2.1.natAbs
    obtain ⟨m1, m2⟩ := digitsOf_num q.2.1.natAbs
    obtain ⟨s1, s2⟩ := secText_spec 5 2 q.2.2.natAbs
    have ht : hmsText rnd w p sep true true a = .ok (signText none ++ digitsOf q.1.natAbs ++ ":".toList ++ digitsOf q.2.1.natAbs ++ ":".toList ++ secText 5 2 q.2.2.natAbs) := by
      unfold hmsText
      simp only [if_true]
      rw [assemble_parts _ _ _ _ _ _ _ _ _ (.inl rfl)]
      simp only [← hq, intText, if_neg (not_lt.2 h1), if_neg (not_lt.2 h2), secIntText, if_neg (not_lt.2 h4)]
      simp [signText]
    have hc := colons sghms radians (inpt := signText none ++ digitsOf q.1.natAbs ++ ":".toList ++ digitsOf q.2.1.natAbs ++ ":".toList ++ secText 5 2 q.2.2.natAbs)
      (.inl rfl : IsSign none) d1 b0 b1 s1 (by
        have := strip_printed (r := ":".toList ++ digitsOf q.2.1.natAbs ++ ":".toList) (z := []) (.inl rfl : IsSign none) d1 s1 (by decide)
        simp only [List.append_assoc, List.append_nil] at this ⊢
        exact this)
    refine ⟨_, ht, numVal (digitsOf q.1.natAbs) + numVal (digitsOf q.2.1.natAbs) / 60 + numVal (secText 5 2 q.2.2.natAbs) / 3600, n, ?_, ⟨n, rfl⟩, ?_⟩
    · rw [hc]
      congr 2
      unfold sexUnit
      cases sghms with
      | none => simp
      | some x => cases x <;> simp
    · simp only [d2, m2, s2, e _ h1, e _ h2, e _ h4]
      exact hn

/-- C170.  Printed with the default separators (the degree sign, ' and "), an angle cannot be read back. -/
theorem default_unreadable {rnd : ℝ → ℤ} (hr : Nearest rnd) (w p : ℕ) (sign : Bool) (a : AC) (sghms : Option Bool) (radians : Bool) :
    ∃ t, dmsText rnd w p (.parts [[Char.ofNat 176], "'".toList, "\"".toList]) sign false true a = .ok t ∧ parse sghms radians t = .error .value := by
  obtain ⟨h1, h2, h3, h4, h5⟩ := dmsStr_fields hr p a
  refine ⟨_, dmsText_exact hr w p _ _ _ sign a, ?_⟩
  set q := Angle.getDmsStr rnd p a with hq
  obtain ⟨d1, -⟩ := digitsOf_num q.deg.natAbs
  obtain ⟨s1, -⟩ := secText_spec w p q.sec.natAbs
  set sg : Option Char := (if q.neg then some '-' else if sign then some '+' else none) with hsg
  set t := signText sg ++ digitsOf q.deg.natAbs ++ [Char.ofNat 176] ++ digitsOf q.min.natAbs ++ "'".toList ++ secText w p q.sec.natAbs ++ "\"".toList with ht
  have hs : strip t = t := by
    have := strip_printed (r := [Char.ofNat 176] ++ digitsOf q.min.natAbs ++ "'".toList) (z := "\"".toList) (sign_ok q.neg sign) d1 s1 (by decide)
    rw [ht, hsg]
    simp only [List.append_assoc] at this ⊢
    exact this
  have hmem : Char.ofNat 176 ∈ t := by rw [ht]; simp
  have numNo : ∀ u : Text, IsNum u → Char.ofNat 176 ∉ u := by
    intro u hu hm
    have := hu.chars _ hm
    exact absurd this (by decide)
  have e : (∃ e, parse sghms radians t = .error e) := by
    rw [refused, hs]
    constructor
    · rintro ⟨sg', u, hsg', hu, he⟩
      rw [← he, List.mem_append] at hmem
      rcases hmem with hm | hm
      · rcases hsg' with rfl | rfl | rfl
        · simp [signText] at hm
        · exact absurd hm (by decide)
        · exact absurd hm (by decide)
      · exact numNo u hu hm
    · rintro ⟨g, hg, he⟩
      rw [← he] at hmem
      have part2 : Char.ofNat 176 ∉ partText g.second := by
        cases h : g.second with
        | none => simp [partText]
        | some x =>
          obtain ⟨hn, hm⟩ := hg.second x.1 x.2 h
          intro hm'
          rcases List.mem_append.1 hm' with h' | h'
          · exact numNo _ hn h'
          · have : ∀ m ∈ marks2, Char.ofNat 176 ∉ m := by decide
            exact this _ hm h'
      have part3 : Char.ofNat 176 ∉ partText g.third := by
        cases h : g.third with
        | none => simp [partText]
        | some x =>
          obtain ⟨hn, hm⟩ := hg.third x.1 x.2 h
          intro hm'
          rcases List.mem_append.1 hm' with h' | h'
          · exact numNo _ hn h'
          · have : ∀ m ∈ marks3, Char.ofNat 176 ∉ m := by decide
            exact this _ hm h'
      unfold text at hmem
      rw [List.mem_append, List.mem_append] at hmem
      rcases hmem with (hm | hm) | hm
      · cases h : g.first with
        | none => rw [h] at hm; simp at hm
        | some x =>
          obtain ⟨sg', u, m⟩ := x
          rw [h] at hm
          simp only [List.mem_append] at hm
          obtain ⟨hs', hn, -⟩ := hg.first _ _ _ h
          rcases hm with (hm | hm) | hm
          · rcases hs' with rfl | rfl | rfl
            · simp [signText] at hm
            · exact absurd hm (by decide)
            · exact absurd hm (by decide)
          · exact numNo u hn hm
          · have : ∀ m ∈ ":".toList :: words, Char.ofNat 176 ∉ m := by decide
            exact this _ (hg.mark h) hm
      · exact part2 hm
      · exact part3 hm
  obtain ⟨err, he⟩ := e
  rw [he]
  unfold parse at he
  split at he
  · simp at he
  · split at he
    · simp at he
    · exact he.symm ▸ rfl

/-- C170.  The documented separator `'dms'` (and `'hms'`) never works with zeros included. -/
theorem word_fails (rnd : ℝ → ℤ) (w p : ℕ) (sign : Bool) (a : AC) :
    dmsText rnd w p (.text "dms".toList) sign false true a = .error .type ∧ hmsText rnd w p (.text "hms".toList) false true a = .error .type := by
  constructor
  · simp [dmsText, assemble, sepList, field, joinAll]
  · simp [hmsText, assemble, sepList, field, joinAll]

/-- C170.  Too few separators raise IndexError; a single one is used twice, and nothing follows the seconds. -/
theorem separators (word pre : Text) (d m s x : Text) (hx : x ≠ word) :
    assemble word pre (.parts []) true d m s = .error .index ∧ assemble word pre (.parts [x]) true d m s = .error .index ∧
    assemble word pre (.parts [x, x]) true d m s = .ok (pre ++ (d ++ (x ++ (m ++ (x ++ s))))) ∧
    assemble word pre (.text x) true d m s = .ok (pre ++ (d ++ (x ++ (m ++ (x ++ s))))) := by
  refine ⟨rfl, rfl, ?_, ?_⟩
  · simp [assemble, sepList, field, joinAll]
  · simp [assemble, sepList, field, joinAll, hx]

/-- C170.  Without zeros, an angle below one degree loses its first part, and with a sign it cannot be read back. -/
theorem no_zeros {rnd : ℝ → ℤ} (hr : Nearest rnd) (w p : ℕ) (x : Text) (a : AC) (sghms : Option Bool) (radians : Bool) (h0 : (Angle.getDmsStr rnd p a).deg = 0)
    (hm0 : (Angle.getDmsStr rnd p a).min ≠ 0) :
    ∃ t, dmsText rnd w p (.parts [x, "'".toList, "\"".toList]) true false false a = .ok t ∧ parse sghms radians t = .error .value := by
  obtain ⟨h1, h2, h3, h4, h5⟩ := dmsStr_fields hr p a
  set q := Angle.getDmsStr rnd p a with hq
  obtain ⟨m1, -⟩ := digitsOf_num q.min.natAbs
  obtain ⟨s1, -⟩ := secText_spec w p q.sec.natAbs
  have hmz : digitsOf q.min.natAbs ≠ "0".toList := fun h => hm0 (Int.natAbs_eq_zero.1 ((digitsOf_zero _).1 h))
  have hdz : digitsOf q.deg.natAbs = "0".toList := (digitsOf_zero _).2 (by rw [h0]; rfl)
  have ht : dmsText rnd w p (.parts [x, "'".toList, "\"".toList]) true false false a =
      .ok ((if q.neg then '-' else '+') :: (digitsOf q.min.natAbs ++ "'".toList ++ partText (some (secText w p q.sec.natAbs, "\"".toList)))) := by
    unfold dmsText
    simp only [← hq, Bool.false_eq_true, if_false, Bool.or_false, intText, if_neg (not_lt.2 h2), secIntText, if_neg (not_lt.2 h4), assemble, sepList,
      field, hdz, ne_eq, not_true, or_self, false_or, hmz, not_false_iff, if_true, List.map_cons, List.map_nil, List.getElem?_cons_succ, List.getElem?_cons_zero]
    cases q.neg <;> simp [joinAll, partText]
  refine ⟨_, ht, ?_⟩
  refine signed_minutes sghms radians m1 (m := "'".toList) (s3 := some (secText w p q.sec.natAbs, "\"".toList)) (sg := if q.neg then '-' else '+')
    (by decide) (by decide) (tail_ok m1 s1 (y := "'".toList) (by decide) (by decide)).2 (by cases q.neg <;> simp) ?_
  have := strip_printed (sg := some (if q.neg then '-' else '+')) (r := "'".toList) (z := "\"".toList) (by cases q.neg <;> simp [IsSign]) m1 s1 (by decide)
  simp only [signText, List.cons_append, List.nil_append, List.append_assoc, partText] at this ⊢
  exact this

/-- C170.  Coordinates as text: both angles with their names; the canonical form has a sign also for the longitude, and `hmslong` never works. -/
theorem coordString_exact {rnd : ℝ → ℤ} (hr : Nearest rnd) (dg sep n1 n2 : Text) (labels canonical : Bool) (lat long : AC) :
    coordString rnd dg sep n1 n2 labels canonical true lat long = .error .type ∧
    ∃ lo la, dmsText rnd 5 2 (.parts [dg, "'".toList, "\"".toList]) false canonical true long = .ok lo ∧
      dmsText rnd 5 2 (.parts [dg, "'".toList, "\"".toList]) true canonical true lat = .ok la ∧
      coordString rnd dg sep n1 n2 labels canonical false lat long = .ok (n1 ++ "=".toList ++ lo ++ sep ++ n2 ++ "=".toList ++ la) := by
  refine ⟨rfl, ?_⟩
  cases canonical with
  | true =>
    obtain ⟨lo, hlo, -⟩ := canonical_readback hr 5 2 (.parts [dg, "'".toList, "\"".toList]) false long none false
    obtain ⟨la, hla, -⟩ := canonical_readback hr 5 2 (.parts [dg, "'".toList, "\"".toList]) true lat none false
    exact ⟨lo, la, hlo, hla, by simp only [coordString, Bool.false_eq_true, if_false, hlo, hla]⟩
  | false =>
    have hlo := dmsText_exact hr 5 2 dg "'".toList "\"".toList false long
    have hla := dmsText_exact hr 5 2 dg "'".toList "\"".toList true lat
    exact ⟨_, _, hlo, hla, by simp only [coordString, Bool.false_eq_true, if_false, hlo, hla]⟩

example : secText 5 2 525 = "05.25".toList ∧ digitsOf 120 = "120".toList ∧ secIntText 5 2 (-30) = "-0.30".toList := by
  refine ⟨?_, ?_, ?_⟩ <;> simp [secText, secIntText, digitsOf, lastDigits, digitChar] <;> decide

end

end Verif.AngleText

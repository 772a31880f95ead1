import Verif.SiteAttr

/-!
# The observatory database (astropysics/obstools.py 1868-1912) (C161)

The text of `obsdb.dat` as a list of lines, and what `__loadobsdb` registers.  `float` is a parameter (a partial function on texts with
real values: NaN and infinities are not modelled).  The angle objects are created here and handed to one site each, so each site is
built in a store of its own and recorded with the contents of its two angles.
-/

namespace Verif.ObsDb

noncomputable section

open Verif.Angle

abbrev Text := List Char

/-- `str.strip`. -/
def isSpace (c : Char) : Bool := c == ' ' || c == '\t' || c == '\n' || c == '\r' || c == '\x0b' || c == '\x0c'
def strip (t : Text) : Text := ((t.dropWhile isSpace).reverse.dropWhile isSpace).reverse

/-- `str.split(c)` for one character. -/
def splitC (c : Char) : Text → List Text
  | [] => [[]]
  | x :: xs =>
    if x = c then [] :: splitC c xs
    else match splitC c xs with
      | [] => [[x]]
      | y :: ys => (x :: y) :: ys

/-- `v.replace('"','')`. -/
def unquote (v : Text) : Text := v.filter (fun c => c != '"')

/-- A line of the file: ignored, a key and a value, or one whose unpacking raises. -/
inductive Line
  | skip
  | pair (k v : Text)
  | bad
  deriving DecidableEq

def pairOf : List Text → Line
  | [k, v] => .pair k v
  | _ => .bad

/-- obstools.py 1875-1878: blank and comment lines are skipped, the others must have one equals sign. -/
def parseLine (l : Text) : Line :=
  match strip l with
  | [] => .skip
  | c :: _ => if c = '#' then .skip else pairOf ((splitC '=' l).map strip)

/-- Exceptions: a line without exactly one `=`, a text that is no number, a latitude outside [-90,90] (all ValueError). -/
inductive Fail
  | line
  | number
  | site
  deriving DecidableEq

/-- The variables of the loop (`long`, `lat` as the degrees the angle is made of). -/
structure Cur where
  name : Option Text
  long : Option ℝ
  lat : Option ℝ
  alt : Option ℝ
  tz : Option ℝ

/-- `name = long = lat = alt = tz = None`, obstools.py 1884. -/
def Cur.reset : Cur := ⟨none, none, none, none, none⟩

/-- A registered site. -/
structure Rec where
  lat : AC
  long : AC
  alt : Option ℝ
  tz : SiteAttr.Zone
  name : String

/-- The loop state: `obs`, the variables, the registry (newest first). -/
structure St where
  obs : Option Text
  cur : Cur
  reg : List (Text × Rec)

/-- obstools.py 1888-1891, 1898-1901: degrees and minutes; further parts are ignored. -/
def sexa (num : Text → Option ℝ) (v : Text) : Option ℝ :=
  match splitC ':' v with
  | [] => none
  | [a] => num a
  | a :: b :: _ =>
    match num a, num b with
    | some x, some y => some (x + y / 60)
    | _, _ => none

/-- obstools.py 1893-1895: degrees west to degrees east. -/
def east (w : ℝ) : ℝ := if -1 * w ≤ -180 then -1 * w + 360 else -1 * w

def argOf : Option ℝ → SiteAttr.Arg
  | none => .none
  | some x => .num x
def altArg : Option ℝ → SiteAttr.AltArg
  | none => .none
  | some x => .num x
def tzArg : Option ℝ → SiteAttr.TzArg
  | none => .none
  | some x => .hours x

/-- `Site(lat,long,alt,tz,name)`, obstools.py 1881, 1909, in a store of its own. -/
def site (c : Cur) : Except Fail Rec :=
  match SiteAttr.mk (fun _ => false) ⟨fun _ => ⟨0, none⟩, 0⟩ (argOf c.lat) (argOf c.long) (altArg c.alt) (tzArg c.tz) (c.name.map String.ofList) with
  | (s, .ok o) => .ok ⟨s.obj o.lat, s.obj o.long, o.alt, o.tz, o.name⟩
  | (_, .error _) => .error .site

/-- `sitereg[obs] = o`: an earlier site of that name is replaced. -/
def put (reg : List (Text × Rec)) (k : Text) (r : Rec) : List (Text × Rec) := (k, r) :: reg.filter (fun p => p.1 != k)

def keyObs : Text := "observatory".toList
def keyName : Text := "name".toList
def keyLong : Text := "longitude".toList
def keyLat : Text := "latitude".toList
def keyAlt : Text := "altitude".toList
def keyTz : Text := "timezone".toList

/-- The branches for the keys other than `observatory`, obstools.py 1885-1906. -/
def setKey (num : Text → Option ℝ) (c : Cur) (k v : Text) : Except Fail Cur :=
  if k = keyName then .ok { c with name := some (unquote v) }
  else if k = keyLong then
    match sexa num v with
    | none => .error .number
    | some w => .ok { c with long := some (east w) }
  else if k = keyLat then
    match sexa num v with
    | none => .error .number
    | some d => .ok { c with lat := some d }
  else if k = keyAlt then
    match num v with
    | none => .error .number
    | some x => .ok { c with alt := some x }
  else if k = keyTz then
    match num v with
    | none => .error .number
    | some x => .ok { c with tz := some (-1 * x) }
  else .ok c

/-- obstools.py 1880-1882, 1908-1910. -/
def register (st : St) : Except Fail (List (Text × Rec)) :=
  match st.obs with
  | none => .ok st.reg
  | some o =>
    match site st.cur with
    | .error e => .error e
    | .ok r => .ok (put st.reg o r)

/-- One turn of the loop, obstools.py 1874-1906. -/
def step (num : Text → Option ℝ) (st : St) : Line → Except Fail St
  | .skip => .ok st
  | .bad => .error .line
  | .pair k v =>
    if k = keyObs then
      match register st with
      | .error e => .error e
      | .ok reg => .ok ⟨some (unquote v), Cur.reset, reg⟩
    else
      match setKey num st.cur k v with
      | .error e => .error e
      | .ok c => .ok { st with cur := c }

/-- The loop over the lines. -/
def loop (num : Text → Option ℝ) (st : St) : List Line → Except Fail St
  | [] => .ok st
  | l :: ls =>
    match step num st l with
    | .error e => .error e
    | .ok st' => loop num st' ls

/-- `__loadobsdb`, obstools.py 1868-1910, on the lines of the file, for a registry `reg`. -/
def load (num : Text → Option ℝ) (reg : List (Text × Rec)) (ls : List Text) : Except Fail (List (Text × Rec)) :=
  match loop num ⟨none, Cur.reset, reg⟩ (ls.map parseLine) with
  | .error e => .error e
  | .ok st => register st

/-! ## Specification -/

/-- The value of the last entry with that key. -/
def lastVal (k : Text) (es : List (Text × Text)) : Option Text := (es.reverse.find? (fun p => p.1 == k)).map (·.2)

/-- Lookup in the registry. -/
def look (reg : List (Text × Rec)) (k : Text) : Option Rec := (reg.find? (fun p => p.1 == k)).map (·.2)

/-- An observatory of the file: its code and its entries, none of which is another `observatory` line. -/
structure Block where
  code : Text
  entries : List (Text × Text)
  pure : ∀ p ∈ entries, p.1 ≠ keyObs

/-- The lines of a block. -/
def Block.lines (b : Block) : List (Text × Text) := (keyObs, b.code) :: b.entries

/-- Every number of an entry list can be read. -/
def Readable (num : Text → Option ℝ) (es : List (Text × Text)) : Prop :=
  ∀ p ∈ es, (p.1 = keyLong ∨ p.1 = keyLat → ∃ x, sexa num p.2 = some x) ∧ (p.1 = keyAlt ∨ p.1 = keyTz → ∃ x, num p.2 = some x)

/-- The latitude of an entry list: that of its last `latitude` line, otherwise 0. -/
def latOf (num : Text → Option ℝ) (es : List (Text × Text)) : ℝ := (((lastVal keyLat es).bind (sexa num)).getD 0)

/-- The longitude in degrees west, likewise. -/
def westOf (num : Text → Option ℝ) (es : List (Text × Text)) : ℝ := (((lastVal keyLong es).bind (sexa num)).getD 0)

/-- What the site of a block has to be: its angles, altitude, time zone and name come from its own lines, the last of each kind. -/
def IsSite (num : Text → Option ℝ) (es : List (Text × Text)) (r : Rec) : Prop :=
  degrees r.lat = latOf num es ∧ -90 ≤ degrees r.lat ∧ degrees r.lat ≤ 90 ∧
  (∃ k : ℤ, degrees r.long = -westOf num es + 360 * k) ∧ -180 ≤ degrees r.long ∧ degrees r.long < 180 ∧
  r.alt = (lastVal keyAlt es).bind num ∧
  r.name = ((lastVal keyName es).map (fun v => String.ofList (unquote v))).getD "Default Site" ∧
  (∀ v x, lastVal keyTz es = some v → num v = some x → ∃ n : ℤ, r.tz = .fixed n ∧ |-x * 3600 - n| < 1 ∧ |(n : ℝ)| ≤ |-x * 3600| ∧ 0 ≤ -x * n) ∧
  (lastVal keyTz es = none → ∃ n : ℤ, r.tz = .fixed (3600 * n) ∧ |degrees r.long / 15 - n| ≤ 1 / 2)

/-! ## One block -/

/-- The variables after some entries. -/
def curOf (num : Text → Option ℝ) (es : List (Text × Text)) : Cur :=
  ⟨(lastVal keyName es).map unquote, ((lastVal keyLong es).bind (sexa num)).map east, (lastVal keyLat es).bind (sexa num),
   (lastVal keyAlt es).bind num, ((lastVal keyTz es).bind num).map (fun x => -1 * x)⟩

theorem lastVal_snoc (k : Text) (es : List (Text × Text)) (p : Text × Text) :
    lastVal k (es ++ [p]) = if p.1 = k then some p.2 else lastVal k es := by
  unfold lastVal
  rw [List.reverse_append]
  simp only [List.reverse_cons, List.reverse_nil, List.nil_append, List.cons_append, List.find?_cons]
  by_cases h : p.1 = k
  · simp [h]
  · simp [h, beq_eq_false_iff_ne.2 h]

theorem key_ne : keyName ≠ keyLong ∧ keyName ≠ keyLat ∧ keyName ≠ keyAlt ∧ keyName ≠ keyTz ∧ keyLong ≠ keyLat ∧ keyLong ≠ keyAlt ∧
    keyLong ≠ keyTz ∧ keyLat ≠ keyAlt ∧ keyLat ≠ keyTz ∧ keyAlt ≠ keyTz := by decide

/-- One entry more. -/
theorem setKey_curOf (num : Text → Option ℝ) (es : List (Text × Text)) (p : Text × Text) :
    (Readable num [p] → setKey num (curOf num es) p.1 p.2 = .ok (curOf num (es ++ [p]))) ∧
    (¬ Readable num [p] → setKey num (curOf num es) p.1 p.2 = .error .number) := by
  obtain ⟨k, v⟩ := p
  obtain ⟨n1, n2, n3, n4, n5, n6, n7, n8, n9, n10⟩ := key_ne
  have hR : Readable num [(k, v)] ↔ ((k = keyLong ∨ k = keyLat → ∃ x, sexa num v = some x) ∧ (k = keyAlt ∨ k = keyTz → ∃ x, num v = some x)) := by
    unfold Readable; simp
  rw [hR]
  simp only [curOf, lastVal_snoc, setKey]
  by_cases h1 : k = keyName
  · subst h1
    simp [n1, n2, n3, n4]
  rw [if_neg h1, if_neg h1]
  by_cases h2 : k = keyLong
  · subst h2
    rw [if_pos rfl]
    cases hs : sexa num v with
    | none => simp
    | some w => simp [hs, n5, n6, n7]
  rw [if_neg h2, if_neg h2]
  by_cases h3 : k = keyLat
  · subst h3
    rw [if_pos rfl]
    cases hs : sexa num v with
    | none => simp
    | some w => simp [hs, n8, n9]
  rw [if_neg h3, if_neg h3]
  by_cases h4 : k = keyAlt
  · subst h4
    rw [if_pos rfl]
    cases hs : num v with
    | none => simp
    | some w => simp [hs, n10, h2, h3]
  rw [if_neg h4, if_neg h4]
  by_cases h5 : k = keyTz
  · subst h5
    rw [if_pos rfl]
    cases hs : num v with
    | none => simp
    | some w => simp [hs, h2, h3]
  · simp [h2, h3, h4, h5]

theorem readable_append (num : Text → Option ℝ) (a b : List (Text × Text)) : Readable num (a ++ b) ↔ Readable num a ∧ Readable num b := by
  unfold Readable
  constructor
  · intro h
    exact ⟨fun p hp => h p (List.mem_append.2 (Or.inl hp)), fun p hp => h p (List.mem_append.2 (Or.inr hp))⟩
  · rintro ⟨h1, h2⟩ p hp
    rcases List.mem_append.1 hp with hp | hp
    · exact h1 p hp
    · exact h2 p hp

def asLine (p : Text × Text) : Line := .pair p.1 p.2

/-- Reading entries that are no `observatory` lines. -/
theorem loop_entries (num : Text → Option ℝ) (o : Option Text) (reg : List (Text × Rec)) (done es : List (Text × Text)) (rest : List Line)
    (h : ∀ p ∈ es, p.1 ≠ keyObs) :
    (Readable num es → loop num ⟨o, curOf num done, reg⟩ (es.map asLine ++ rest) = loop num ⟨o, curOf num (done ++ es), reg⟩ rest) ∧
    (¬ Readable num es → loop num ⟨o, curOf num done, reg⟩ (es.map asLine ++ rest) = .error .number) := by
  induction es generalizing done with
  | nil => exact ⟨fun _ => by simp, fun h => absurd (fun p hp => by cases hp) h⟩
  | cons p es ih =>
    have hp : p.1 ≠ keyObs := h p (by simp)
    obtain ⟨i1, i2⟩ := ih (done ++ [p]) (fun q hq => h q (by simp [hq]))
    obtain ⟨s1, s2⟩ := setKey_curOf num done p
    have hc : Readable num (p :: es) ↔ Readable num [p] ∧ Readable num es := readable_append num [p] es
    have hstep : loop num ⟨o, curOf num done, reg⟩ ((p :: es).map asLine ++ rest) =
        match setKey num (curOf num done) p.1 p.2 with
        | .error e => .error e
        | .ok c => loop num ⟨o, c, reg⟩ (es.map asLine ++ rest) := by
      simp only [List.map_cons, List.cons_append, loop, asLine, step, if_neg hp]
      cases setKey num (curOf num done) p.1 p.2 <;> rfl
    rw [hstep, hc]
    by_cases hr : Readable num [p]
    · rw [s1 hr]
      simp only [hr, true_and]
      rw [List.append_assoc, List.singleton_append] at i1
      exact ⟨i1, i2⟩
    · rw [s2 hr]
      exact ⟨fun h => absurd h.1 hr, fun _ => rfl⟩

theorem curOf_nil (num : Text → Option ℝ) : curOf num [] = Cur.reset := rfl

instance readableDec (num : Text → Option ℝ) (es : List (Text × Text)) : Decidable (Readable num es) := Classical.propDecidable _

/-- The registry after some blocks. -/
def blocksReg (num : Text → Option ℝ) (reg : List (Text × Rec)) : List Block → Except Fail (List (Text × Rec))
  | [] => .ok reg
  | b :: bs =>
    if ∀ p ∈ b.entries, Readable num [p] then
      match site (curOf num b.entries) with
      | .error e => .error e
      | .ok r => blocksReg num (put reg (unquote b.code) r) bs
    else .error .number

def flat (bs : List Block) : List (Text × Text) := bs.flatMap Block.lines

theorem readable_all (num : Text → Option ℝ) (es : List (Text × Text)) : (∀ p ∈ es, Readable num [p]) ↔ Readable num es := by
  unfold Readable
  constructor
  · intro h p hp; exact h p hp p (by simp)
  · intro h p hp q hq
    rw [List.mem_singleton.1 hq]; exact h p hp

def finishLoop (num : Text → Option ℝ) (st : St) (ls : List Line) : Except Fail (List (Text × Rec)) :=
  match loop num st ls with
  | .error e => .error e
  | .ok st => register st

/-- A block, and what follows it. -/
theorem loop_blocks (num : Text → Option ℝ) (b : Block) (bs : List Block) (reg : List (Text × Rec)) :
    finishLoop num ⟨some (unquote b.code), Cur.reset, reg⟩ ((b.entries ++ flat bs).map asLine) = blocksReg num reg (b :: bs) := by
  induction bs generalizing b reg with
  | nil =>
    obtain ⟨h1, h2⟩ := loop_entries num (some (unquote b.code)) reg [] b.entries [] b.pure
    rw [curOf_nil, List.append_nil] at h1 h2
    simp only [flat, List.flatMap_nil, List.append_nil, blocksReg]
    by_cases hr : Readable num b.entries
    · rw [if_pos ((readable_all _ _).2 hr)]
      simp only [finishLoop, h1 hr, loop, List.nil_append, register]
    · rw [if_neg (fun h => hr ((readable_all _ _).1 h))]
      simp only [finishLoop, h2 hr]
  | cons b' bs ih =>
    obtain ⟨h1, h2⟩ := loop_entries num (some (unquote b.code)) reg [] b.entries ((flat (b' :: bs)).map asLine) b.pure
    rw [curOf_nil] at h1 h2
    rw [List.map_append]
    by_cases hr : Readable num b.entries
    · have e1 : finishLoop num ⟨some (unquote b.code), Cur.reset, reg⟩ (b.entries.map asLine ++ (flat (b' :: bs)).map asLine) =
          match site (curOf num b.entries) with
          | .error e => .error e
          | .ok r => finishLoop num ⟨some (unquote b'.code), Cur.reset, put reg (unquote b.code) r⟩ ((b'.entries ++ flat bs).map asLine) := by
        have ef : (flat (b' :: bs)).map asLine = asLine (keyObs, b'.code) :: (b'.entries ++ flat bs).map asLine := by
          simp [flat, Block.lines]
        unfold finishLoop
        rw [h1 hr, ef]
        simp only [loop, asLine, step, if_true, register, List.nil_append]
        cases site (curOf num b.entries) <;> rfl
      rw [e1]
      conv => rhs; unfold blocksReg
      rw [if_pos ((readable_all _ _).2 hr)]
      cases site (curOf num b.entries) with
      | error e => rfl
      | ok r => exact ih b' _
    · simp only [finishLoop, h2 hr]
      conv => rhs; unfold blocksReg
      rw [if_neg (fun h => hr ((readable_all _ _).1 h))]

/-- Blank and comment lines do nothing. -/
theorem loop_skip (num : Text → Option ℝ) (st : St) (ls : List Line) : loop num st ls = loop num st (ls.filter (fun l => l ≠ .skip)) := by
  induction ls generalizing st with
  | nil => rfl
  | cons l ls ih =>
    by_cases h : l = .skip
    · subst h
      simp only [loop, step, List.filter_cons, ne_eq, not_true_eq_false, decide_false, Bool.false_eq_true, if_false]
      exact ih st
    · simp only [List.filter_cons, ne_eq, h, not_false_eq_true, decide_true, if_true, loop]
      cases step num st l with
      | error e => rfl
      | ok st' => exact ih st'

/-! ## C161 -/

/-- The lines of a file that are neither blank nor comments are these key-value pairs. -/
def Content (ls : List Text) (ps : List (Text × Text)) : Prop := (ls.map parseLine).filter (fun l => l ≠ .skip) = ps.map asLine

/-- A file with some lines before the first `observatory` line and then blocks. -/
theorem load_blocks (num : Text → Option ℝ) (reg : List (Text × Rec)) (ls : List Text) (pre : List (Text × Text)) (bs : List Block)
    (hp : ∀ p ∈ pre, p.1 ≠ keyObs) (h : Content ls (pre ++ flat bs)) :
    load num reg ls = if ∀ p ∈ pre, Readable num [p] then blocksReg num reg bs else .error .number := by
  have e0 : load num reg ls = finishLoop num ⟨none, Cur.reset, reg⟩ ((pre ++ flat bs).map asLine) := by
    unfold load finishLoop
    rw [loop_skip, h]
  rw [e0, List.map_append]
  obtain ⟨h1, h2⟩ := loop_entries num none reg [] pre ((flat bs).map asLine) hp
  rw [curOf_nil] at h1 h2
  by_cases hr : Readable num pre
  · rw [if_pos ((readable_all _ _).2 hr)]
    cases bs with
    | nil =>
      unfold finishLoop
      rw [h1 hr]; rfl
    | cons b bs =>
      rw [← loop_blocks]
      have ef : (flat (b :: bs)).map asLine = asLine (keyObs, b.code) :: (b.entries ++ flat bs).map asLine := by
        simp [flat, Block.lines]
      unfold finishLoop
      rw [h1 hr, ef]
      simp only [loop, asLine, step, if_true, register]
  · rw [if_neg (fun h => hr ((readable_all _ _).1 h))]
    simp only [finishLoop, h2 hr]

theorem not_same (x y : Option ℝ) : ¬ SiteAttr.Same (argOf x) (argOf y) := by
  rintro ⟨i, h, _⟩; cases x <;> cases h

theorem known (s : SiteAttr.Store) (x : Option ℝ) : (argOf x).Known s := by cases x <;> trivial

theorem deg_argOf (s : SiteAttr.Store) (x : Option ℝ) : (argOf x).deg s = some (x.getD 0) := by cases x <;> rfl

/-- Degrees west become degrees east up to full turns. -/
theorem east_spec (w : ℝ) : (east w = -w ∨ east w = -w + 360) ∧ (-180 ≤ w → w < 540 → -180 < east w ∧ east w ≤ 180) := by
  unfold east
  split
  · exact ⟨Or.inr (by ring), fun h1 h2 => ⟨by linarith, by linarith⟩⟩
  · exact ⟨Or.inl (by ring), fun h1 h2 => ⟨by linarith, by linarith⟩⟩

/-- A block's site is built exactly if its latitude lies between -90 and 90 degrees. -/
theorem site_ok_iff (num : Text → Option ℝ) (es : List (Text × Text)) :
    (∃ r, site (curOf num es) = .ok r) ↔ -90 ≤ latOf num es ∧ latOf num es ≤ 90 := by
  have hacc := SiteAttr.accepted_iff (fun _ => false) ⟨fun _ => ⟨0, none⟩, 0⟩ (argOf (curOf num es).lat) (argOf (curOf num es).long)
    (altArg (curOf num es).alt) (tzArg (curOf num es).tz) ((curOf num es).name.map String.ofList) (known _ _) (known _ _)
  have hl : (argOf (curOf num es).lat).deg ⟨fun _ => ⟨0, none⟩, 0⟩ = some (latOf num es) := by rw [deg_argOf]; rfl
  constructor
  · rintro ⟨r, h⟩
    unfold site at h
    split at h
    · rename_i s o heq
      obtain ⟨⟨d, h1, h2, h3⟩, _⟩ := hacc.1 ⟨_, _, heq⟩
      rw [hl] at h1; cases h1
      exact ⟨h2, h3⟩
    · cases h
  · intro h
    obtain ⟨s', o, heq⟩ := hacc.2 ⟨⟨_, hl, h.1, h.2⟩, ⟨_, deg_argOf _ _⟩, by cases (curOf num es).alt <;> simp [altArg],
      by cases (curOf num es).tz <;> simp [tzArg]⟩
    refine ⟨⟨s'.obj o.lat, s'.obj o.long, o.alt, o.tz, o.name⟩, ?_⟩
    unfold site
    rw [heq]

/-- And it is the site the block describes. -/
theorem site_spec (num : Text → Option ℝ) (es : List (Text × Text)) (hr : Readable num es) (r : Rec) (h : site (curOf num es) = .ok r) :
    IsSite num es r := by
  unfold site at h
  split at h
  · rename_i s' o heq
    cases h
    obtain ⟨a1, a2, a3, ⟨d, k, a4, a5⟩, a6, a7, a8, a9, a10⟩ := SiteAttr.new_site _ _ _ _ _ _ _ _ _ (known _ _) (known _ _) (not_same _ _) heq
    obtain ⟨t1, t2, _⟩ := SiteAttr.time_zone _ _ _ _ _ _ _ _ _ (known _ _) (known _ _) (not_same _ _) heq
    rw [deg_argOf] at a1 a4
    refine ⟨?_, a2, a3, ?_, a6, a7, ?_, ?_, ?_, ?_⟩
    · injection a1 with a1; exact a1.symm
    · injection a4 with a4
      show ∃ k : ℤ, degrees (s'.obj o.long) = -westOf num es + 360 * k
      have hw : ∃ j : ℤ, ((curOf num es).long).getD 0 = -westOf num es + 360 * j := by
        unfold westOf curOf
        cases ((lastVal keyLong es).bind (sexa num)) with
        | none => exact ⟨0, by simp⟩
        | some w =>
          rcases (east_spec w).1 with e | e
          · exact ⟨0, by simp [e]⟩
          · exact ⟨1, by simp [e]⟩
      obtain ⟨j, hj⟩ := hw
      refine ⟨j + k, ?_⟩
      rw [a5, ← a4, hj]; push_cast; ring
    · show o.alt = (lastVal keyAlt es).bind num
      cases hx : (lastVal keyAlt es).bind num with
      | none => exact a9 (by unfold curOf; simp only [hx]; rfl)
      | some x => exact a10 x (by unfold curOf; simp only [hx]; rfl)
    · show o.name = _
      rw [a8]
      unfold curOf
      cases lastVal keyName es <;> rfl
    · intro v x hv hx
      have := t2 (-1 * x) (by unfold curOf; simp only [hv, Option.bind_some, hx]; rfl)
      simpa using this
    · intro hv
      obtain ⟨n, n1, n2, _⟩ := t1 (by unfold curOf; simp only [hv]; rfl)
      exact ⟨n, n1, n2⟩
  · cases h

/-- The file is loaded exactly if every number in it can be read and the latitude of every observatory is between -90 and 90 degrees. -/
theorem load_ok_iff (num : Text → Option ℝ) (reg : List (Text × Rec)) (ls : List Text) (pre : List (Text × Text)) (bs : List Block)
    (hp : ∀ p ∈ pre, p.1 ≠ keyObs) (h : Content ls (pre ++ flat bs)) :
    (∃ reg', load num reg ls = .ok reg') ↔
      Readable num pre ∧ ∀ b ∈ bs, Readable num b.entries ∧ -90 ≤ latOf num b.entries ∧ latOf num b.entries ≤ 90 := by
  rw [load_blocks num reg ls pre bs hp h]
  have key : (∃ reg', blocksReg num reg bs = .ok reg') ↔
      ∀ b ∈ bs, Readable num b.entries ∧ -90 ≤ latOf num b.entries ∧ latOf num b.entries ≤ 90 := by
    clear h
    induction bs generalizing reg with
    | nil => exact ⟨fun _ => by simp, fun _ => ⟨_, rfl⟩⟩
    | cons b bs ih =>
      rw [List.forall_mem_cons]
      conv => lhs; unfold blocksReg
      by_cases hr : Readable num b.entries
      · rw [if_pos ((readable_all _ _).2 hr)]
        cases hs : site (curOf num b.entries) with
        | error e =>
          constructor
          · rintro ⟨_, hh⟩; cases hh
          · rintro ⟨⟨_, hl⟩, _⟩
            obtain ⟨r, hh⟩ := (site_ok_iff num b.entries).2 hl
            rw [hs] at hh; cases hh
        | ok r =>
          rw [show (∃ reg', (match (Except.ok r : Except Fail Rec) with
            | .error e => .error e
            | .ok r => blocksReg num (put reg (unquote b.code) r) bs) = Except.ok reg') ↔ _ from ih (put reg (unquote b.code) r)]
          have := (site_ok_iff num b.entries).1 ⟨r, hs⟩
          exact ⟨fun hh => ⟨⟨hr, this⟩, hh⟩, fun hh => hh.2⟩
      · rw [if_neg (fun h => hr ((readable_all _ _).1 h))]
        constructor
        · rintro ⟨_, hh⟩; cases hh
        · rintro ⟨⟨hh, _⟩, _⟩; exact absurd hh hr
  by_cases hr : Readable num pre
  · rw [if_pos ((readable_all _ _).2 hr), key]
    exact ⟨fun h => ⟨hr, h⟩, fun h => h.2⟩
  · rw [if_neg (fun h => hr ((readable_all _ _).1 h))]
    exact ⟨fun h => (by obtain ⟨_, hh⟩ := h; cases hh), fun h => absurd h.1 hr⟩

theorem look_put (reg : List (Text × Rec)) (k k' : Text) (r : Rec) : look (put reg k r) k' = if k = k' then some r else look reg k' := by
  unfold look put
  rw [List.find?_cons]
  by_cases h : k = k'
  · subst h; simp
  · have hb : (k == k') = false := by simp [h]
    simp only [hb, if_neg h]
    congr 1
    induction reg with
    | nil => rfl
    | cons p reg ih =>
      by_cases h2 : p.1 = k
      · have : (p.1 != k) = false := by simp [h2]
        simp only [List.filter_cons, this, Bool.false_eq_true, if_false, List.find?_cons]
        have hb2 : (p.1 == k') = false := by simp [h2, h]
        rw [hb2]; exact ih
      · have : (p.1 != k) = true := by simp [h2]
        simp only [List.filter_cons, this, if_true, List.find?_cons]
        split
        · rfl
        · exact ih

theorem blocksReg_look (num : Text → Option ℝ) (bs : List Block) : ∀ (reg reg' : List (Text × Rec)), blocksReg num reg bs = .ok reg' →
    (∀ k, (∀ b ∈ bs, unquote b.code ≠ k) → look reg' k = look reg k) ∧
    (∀ b1 b b2, bs = b1 ++ b :: b2 → (∀ c ∈ b2, unquote c.code ≠ unquote b.code) →
      ∃ r, look reg' (unquote b.code) = some r ∧ IsSite num b.entries r) := by
  induction bs with
  | nil =>
    intro reg reg' h
    cases h
    exact ⟨fun _ _ => rfl, fun b1 b b2 e => by cases b1 <;> cases e⟩
  | cons b0 bs ih =>
    intro reg reg' h
    unfold blocksReg at h
    split at h
    · rename_i hr
      split at h
      · cases h
      · rename_i r hs
        obtain ⟨i1, i2⟩ := ih _ _ h
        refine ⟨fun k hk => ?_, fun b1 b b2 e hl => ?_⟩
        · rw [i1 k (fun b hb => hk b (by simp [hb])), look_put, if_neg (hk b0 (by simp))]
        · cases b1 with
          | nil =>
            simp only [List.nil_append, List.cons.injEq] at e
            obtain ⟨rfl, rfl⟩ := e
            refine ⟨r, ?_, site_spec num _ ((readable_all _ _).1 hr) r hs⟩
            rw [i1 _ hl, look_put, if_pos rfl]
          | cons b1' b1 =>
            simp only [List.cons_append, List.cons.injEq] at e
            exact i2 b1 b b2 e.2 hl
    · cases h

/-- Every observatory of a file that loads is registered under its code without quotes, as the site its own lines describe (the last
block, for a code used twice); nothing else in the registry changes. -/
theorem registered (num : Text → Option ℝ) (reg reg' : List (Text × Rec)) (ls : List Text) (pre : List (Text × Text)) (bs : List Block)
    (hp : ∀ p ∈ pre, p.1 ≠ keyObs) (h : Content ls (pre ++ flat bs)) (hl : load num reg ls = .ok reg') :
    (∀ b1 b b2, bs = b1 ++ b :: b2 → (∀ c ∈ b2, unquote c.code ≠ unquote b.code) →
      ∃ r, look reg' (unquote b.code) = some r ∧ IsSite num b.entries r) ∧
    (∀ k, (∀ b ∈ bs, unquote b.code ≠ k) → look reg' k = look reg k) := by
  rw [load_blocks num reg ls pre bs hp h] at hl
  split at hl
  · obtain ⟨h1, h2⟩ := blocksReg_look num bs reg reg' hl
    exact ⟨h2, h1⟩
  · cases hl

/-- Every list of key-value pairs has this form. -/
theorem blocks_exist (ps : List (Text × Text)) : ∃ pre bs, (∀ p ∈ pre, p.1 ≠ keyObs) ∧ ps = pre ++ flat bs := by
  induction ps with
  | nil => exact ⟨[], [], by simp, rfl⟩
  | cons p ps ih =>
    obtain ⟨pre, bs, h1, rfl⟩ := ih
    by_cases h : p.1 = keyObs
    · refine ⟨[], ⟨p.2, pre, h1⟩ :: bs, by simp, ?_⟩
      simp [flat, Block.lines, ← h]
    · refine ⟨p :: pre, bs, ?_, rfl⟩
      intro q hq
      rcases List.mem_cons.1 hq with rfl | hq
      · exact h
      · exact h1 q hq

/-- A line that is neither blank nor a comment and does not have exactly one equals sign stops the loading. -/
theorem bad_line (num : Text → Option ℝ) (reg : List (Text × Rec)) (ls : List Text) (h : .bad ∈ ls.map parseLine) :
    ∃ e, load num reg ls = .error e := by
  have key : ∀ (qs : List Line) (st : St), Line.bad ∈ qs → ∃ e, loop num st qs = .error e := by
    intro qs
    induction qs with
    | nil => intro st h; cases h
    | cons q qs ih =>
      intro st h
      by_cases hq : q = .bad
      · subst hq; exact ⟨_, rfl⟩
      · have h' : Line.bad ∈ qs := by
          rcases List.mem_cons.1 h with e | e
          · exact absurd e.symm hq
          · exact e
        simp only [loop]
        cases step num st q with
        | error e => exact ⟨e, rfl⟩
        | ok st' => exact ih st' h'
  obtain ⟨e, he⟩ := key _ ⟨none, Cur.reset, reg⟩ h
  refine ⟨e, ?_⟩
  unfold load
  rw [he]

theorem splitC_no (c : Char) (t : Text) (h : c ∉ t) : splitC c t = [t] := by
  induction t with
  | nil => rfl
  | cons x t ih =>
    simp only [List.mem_cons, not_or] at h
    simp only [splitC, if_neg (Ne.symm h.1), ih h.2]

theorem splitC_cons (c : Char) (a t : Text) (h : c ∉ a) : splitC c (a ++ c :: t) = a :: splitC c t := by
  induction a with
  | nil => simp [splitC]
  | cons x a ih =>
    simp only [List.mem_cons, not_or] at h
    simp only [List.cons_append, splitC, if_neg (Ne.symm h.1), ih h.2]

/-- C161.  What a line says: nothing if it is blank or a comment, otherwise a key and a value (without surrounding blanks) exactly if it has one equals sign. -/
theorem line_exact (l : Text) :
    (parseLine l = .skip ↔ strip l = [] ∨ (strip l).head? = some '#') ∧
    (∀ k v, parseLine l = .pair k v ↔ ¬ (strip l = [] ∨ (strip l).head? = some '#') ∧ ∃ a b, l = a ++ '=' :: b ∧ '=' ∉ a ∧ '=' ∉ b ∧ k = strip a ∧ v = strip b) ∧
    (parseLine l = .bad ↔ ¬ (strip l = [] ∨ (strip l).head? = some '#') ∧ l.count '=' ≠ 1) := by
  have hsp : (∃ a b, l = a ++ '=' :: b ∧ '=' ∉ a ∧ '=' ∉ b ∧ pairOf ((splitC '=' l).map strip) = .pair (strip a) (strip b) ∧ l.count '=' = 1) ∨
      ((¬ ∃ a b, l = a ++ '=' :: b ∧ '=' ∉ a ∧ '=' ∉ b) ∧ pairOf ((splitC '=' l).map strip) = .bad ∧ l.count '=' ≠ 1) := by
    by_cases h1 : '=' ∈ l
    · obtain ⟨a, t, e, ha⟩ := List.eq_append_cons_of_mem h1
      by_cases h2 : '=' ∈ t
      · obtain ⟨b, u, e', hb⟩ := List.eq_append_cons_of_mem h2
        right
        subst e'
        refine ⟨?_, ?_, ?_⟩
        · rintro ⟨a', b', e2, ha', hb'⟩
          rw [e] at e2
          have c1 := congrArg (List.count '=') e2
          simp only [List.count_append, List.count_cons_self, List.count_eq_zero_of_not_mem ha, List.count_eq_zero_of_not_mem ha',
            List.count_eq_zero_of_not_mem hb'] at c1
          omega
        · rw [e, splitC_cons _ _ _ ha, splitC_cons _ _ _ hb]
          cases hu : splitC '=' u with
          | nil => exact absurd hu (by cases u with
              | nil => simp [splitC]
              | cons x xs => simp only [splitC]; split <;> [simp; (split <;> simp)])
          | cons y ys => rfl
        · rw [e, List.count_append, List.count_cons_self, List.count_append, List.count_cons_self]
          omega
      · left
        refine ⟨a, t, e, ha, h2, ?_, ?_⟩
        · rw [e, splitC_cons _ _ _ ha, splitC_no _ _ h2]; rfl
        · rw [e]; simp [List.count_append, List.count_eq_zero_of_not_mem ha, List.count_eq_zero_of_not_mem h2]
    · right
      refine ⟨?_, ?_, ?_⟩
      · rintro ⟨a, b, e, -⟩; exact h1 (by rw [e]; simp)
      · rw [splitC_no _ _ h1]; rfl
      · rw [List.count_eq_zero_of_not_mem h1]; simp
  have huniq : ∀ a b a' b' : Text, a ++ '=' :: b = a' ++ '=' :: b' → '=' ∉ a → '=' ∉ a' → a = a' ∧ b = b' := by
    intro a
    induction a with
    | nil =>
      intro b a' b' e _ h'
      cases a' with
      | nil => simpa using e
      | cons x xs => simp at e; simp [← e.1] at h'
    | cons y ys ih =>
      intro b a' b' e h h'
      cases a' with
      | nil => simp at e; simp [e.1] at h
      | cons x xs =>
        simp only [List.cons_append, List.cons.injEq] at e
        simp only [List.mem_cons, not_or] at h h'
        obtain ⟨h1, h2⟩ := ih b xs b' e.2 h.2 h'.2
        exact ⟨by rw [e.1, h1], h2⟩
  unfold parseLine
  cases hs : strip l with
  | nil => simp
  | cons c r =>
    by_cases hc : c = '#'
    · simp [hc]
    · simp only [if_neg hc, if_false, List.head?_cons, Option.some.injEq, hc, reduceCtorEq, or_self, not_false_iff, true_and]
      rcases hsp with ⟨a, b, e, ha, hb, hp, hn⟩ | ⟨hno, hp, hn⟩
      · rw [hp]
        refine ⟨by simp, fun k v => ?_, by simp [hn]⟩
        constructor
        · intro h
          simp only [Line.pair.injEq] at h
          exact ⟨a, b, e, ha, hb, h.1.symm, h.2.symm⟩
        · rintro ⟨a', b', e', ha', hb', rfl, rfl⟩
          obtain ⟨rfl, rfl⟩ := huniq _ _ _ _ (e ▸ e') ha ha'
          rfl
      · rw [hp]
        refine ⟨by simp, fun k v => ?_, by simp [hn]⟩
        simp only [reduceCtorEq, false_iff]
        rintro ⟨a', b', e', ha', hb', -⟩
        exact hno ⟨a', b', e', ha', hb'⟩

/-- How angles are read: a plain number; degrees and minutes; seconds are dropped. -/
theorem sexagesimal (num : Text → Option ℝ) (a b c : Text) (x y : ℝ) (ha : ':' ∉ a) (hb : ':' ∉ b) (hx : num a = some x) (hy : num b = some y) :
    sexa num a = some x ∧ sexa num (a ++ ':' :: b) = some (x + y / 60) ∧ sexa num (a ++ ':' :: (b ++ ':' :: c)) = some (x + y / 60) := by
  refine ⟨?_, ?_, ?_⟩
  · simp only [sexa, splitC_no _ _ ha, hx]
  · simp only [sexa, splitC_cons _ _ _ ha, splitC_no _ _ hb, hx, hy]
  · simp only [sexa, splitC_cons _ _ _ ha, splitC_cons _ _ _ hb, hx, hy]

/-- The angle written `d:m:s`, north or south of zero. -/
def meant (south : Bool) (d m s : ℝ) : ℝ := if south then -(d + m / 60 + s / 3600) else d + m / 60 + s / 3600

/-- What is stored, `±d + m/60`, is the angle that was written exactly if there are no seconds and, for negative degrees, no minutes;
a southern latitude is otherwise twice its minutes too far north. -/
theorem stored_right_iff (d m s : ℝ) (hm : 0 ≤ m) (hs : 0 ≤ s) :
    (d + m / 60 = meant false d m s ↔ s = 0) ∧ (-d + m / 60 = meant true d m s ↔ m = 0 ∧ s = 0) ∧
    -d + m / 60 - meant true d m 0 = 2 * (m / 60) := by
  simp only [meant, if_true, Bool.false_eq_true, if_false]
  refine ⟨⟨fun h => by linarith, fun h => by rw [h]; ring⟩, ⟨fun h => ⟨by linarith, by linarith⟩, fun ⟨h1, h2⟩ => by rw [h1, h2]; ring⟩, by ring⟩

/-! ## A piece of the file -/

/-- Decimal numbers of the form used in the file, for the example: digits, an optional sign, an optional point. -/
def digits : Text → Option ℕ
  | t => if t.all Char.isDigit then some (t.foldl (fun n c => 10 * n + (c.toNat - 48)) 0) else none

def unsigned (t : Text) : Option ℚ :=
  match splitC '.' t with
  | [a] => if a = [] then none else (digits a).map (fun n => (n : ℚ))
  | [a, b] =>
    match digits a, digits b with
    | some x, some y => if a = [] ∧ b = [] then none else some ((x : ℚ) + (y : ℚ) / 10 ^ b.length)
    | _, _ => none
  | _ => none

def decimal (t : Text) : Option ℚ :=
  match strip t with
  | '-' :: t => (unsigned t).map (fun x => -x)
  | '+' :: t => unsigned t
  | t => unsigned t

def float (t : Text) : Option ℝ := (decimal t).map (fun q => (q : ℝ))

/-- obsdb.dat 10-29, shortened. -/
def sampleLines : List Text :=
  ["# this file originally came from IRAF", "", "observatory = \"kpno\"", "\tname = \"Kitt Peak National Observatory\"",
   "\tlongitude = 111:36.0", "\tlatitude = 31:57.8", "\taltitude = 2120.", "\ttimezone = 7", "",
   "observatory = \"eso\"", "\tname = \"European Southern Observatory\"", "\tlongitude = 70:43.8", "\tlatitude = -29:15.4",
   "\ttimezone = 4"].map String.toList

def pairs (l : List (String × String)) : List (Text × Text) := l.map (fun p => (p.1.toList, p.2.toList))

def kpno : Block := ⟨"\"kpno\"".toList, pairs [("name", "\"Kitt Peak National Observatory\""), ("longitude", "111:36.0"),
  ("latitude", "31:57.8"), ("altitude", "2120."), ("timezone", "7")], by decide⟩
def eso : Block := ⟨"\"eso\"".toList, pairs [("name", "\"European Southern Observatory\""), ("longitude", "70:43.8"),
  ("latitude", "-29:15.4"), ("timezone", "4")], by decide⟩

theorem sample_content : Content sampleLines ([] ++ flat [kpno, eso]) := by
  unfold Content; decide +kernel

theorem sample_lat : sexa float "-29:15.4".toList = some (-29 + 15.4 / 60) := by
  have h1 : splitC ':' "-29:15.4".toList = ["-29".toList, "15.4".toList] := by decide +kernel
  have h2 : decimal "-29".toList = some (-29) := by decide +kernel
  have h3 : decimal "15.4".toList = some (77/5) := by decide +kernel
  simp only [sexa, h1, float, h2, h3, Option.map_some]
  norm_num

/-- The European Southern Observatory is registered half a degree too far north: at -28.743 instead of -29.257 degrees, and the altitude
of the observatory before it is not taken over. -/
theorem eso_misplaced (reg reg' : List (Text × Rec)) (h : load float reg sampleLines = .ok reg') :
    ∃ r, look reg' "eso".toList = some r ∧ degrees r.lat = -29 + 15.4 / 60 ∧ degrees r.lat ≠ meant true 29 15.4 0 ∧ r.alt = none ∧
      r.name = "European Southern Observatory" := by
  obtain ⟨r, h1, h2⟩ := (registered float reg reg' sampleLines [] [kpno, eso] (by simp) sample_content h).1 [kpno] eso [] rfl (by simp)
  have hc : unquote eso.code = "eso".toList := by decide +kernel
  rw [hc] at h1
  have hl : lastVal keyLat eso.entries = some "-29:15.4".toList := by decide +kernel
  have ha : lastVal keyAlt eso.entries = none := by decide +kernel
  have hn : (lastVal keyName eso.entries).map unquote = some "European Southern Observatory".toList := by decide +kernel
  obtain ⟨s1, _, _, _, _, _, s7, s8, _⟩ := h2
  have e : degrees r.lat = -29 + 15.4 / 60 := by
    rw [s1, latOf, hl, Option.bind_some, sample_lat]; rfl
  refine ⟨r, h1, e, ?_, ?_, ?_⟩
  · rw [e]; simp only [meant, if_true]; norm_num
  · rw [s7, ha]; rfl
  · rw [s8, show (lastVal keyName eso.entries).map (fun v => String.ofList (unquote v)) = ((lastVal keyName eso.entries).map unquote).map String.ofList
      from by cases lastVal keyName eso.entries <;> rfl, hn]
    rfl

theorem isSome_exists {α : Type} {o : Option α} (h : o.isSome = true) : ∃ x, o = some x := Option.isSome_iff_exists.1 h

/-- The sample is loaded. -/
example : ∃ reg', load float [] sampleLines = .ok reg' := by
  have h1 : sexa float "31:57.8".toList = some (31 + 57.8 / 60) := by
    have h1 : splitC ':' "31:57.8".toList = ["31".toList, "57.8".toList] := by decide +kernel
    have h2 : decimal "31".toList = some 31 := by decide +kernel
    have h3 : decimal "57.8".toList = some (289/5) := by decide +kernel
    simp only [sexa, h1, float, h2, h3, Option.map_some]
    norm_num
  have h2 : ∃ x, sexa float "111:36.0".toList = some x := by
    have h1 : splitC ':' "111:36.0".toList = ["111".toList, "36.0".toList] := by decide +kernel
    have h2 : decimal "111".toList = some 111 := by decide +kernel
    have h3 : decimal "36.0".toList = some 36 := by decide +kernel
    simp only [sexa, h1, float, h2, h3, Option.map_some]
    exact ⟨_, rfl⟩
  have h3 : ∃ x, sexa float "70:43.8".toList = some x := by
    have h1 : splitC ':' "70:43.8".toList = ["70".toList, "43.8".toList] := by decide +kernel
    have h2 : decimal "70".toList = some 70 := by decide +kernel
    have h3 : decimal "43.8".toList = some (219/5) := by decide +kernel
    simp only [sexa, h1, float, h2, h3, Option.map_some]
    exact ⟨_, rfl⟩
  have f1 : ∃ x, float "2120.".toList = some x := ⟨_, by unfold float; rw [show decimal "2120.".toList = some 2120 by decide +kernel]; rfl⟩
  have f2 : ∃ x, float "7".toList = some x := ⟨_, by unfold float; rw [show decimal "7".toList = some 7 by decide +kernel]; rfl⟩
  have f3 : ∃ x, float "4".toList = some x := ⟨_, by unfold float; rw [show decimal "4".toList = some 4 by decide +kernel]; rfl⟩
  apply (load_ok_iff float [] sampleLines [] [kpno, eso] (by simp) sample_content).2
  refine ⟨(by intro p hp; cases hp), ?_⟩
  have d1 : keyAlt ≠ keyLong ∧ keyAlt ≠ keyLat ∧ keyTz ≠ keyLong ∧ keyTz ≠ keyLat ∧ keyLong ≠ keyAlt ∧ keyLong ≠ keyTz ∧ keyLat ≠ keyAlt ∧
    keyLat ≠ keyTz ∧ keyName ≠ keyLong ∧ keyName ≠ keyLat ∧ keyName ≠ keyAlt ∧ keyName ≠ keyTz := by decide
  obtain ⟨d1, d2, d3, d4, d5, d6, d7, d8, d9, d10, d11, d12⟩ := d1
  have hk : kpno.entries = [(keyName, "\"Kitt Peak National Observatory\"".toList), (keyLong, "111:36.0".toList), (keyLat, "31:57.8".toList),
    (keyAlt, "2120.".toList), (keyTz, "7".toList)] := rfl
  have he : eso.entries = [(keyName, "\"European Southern Observatory\"".toList), (keyLong, "70:43.8".toList), (keyLat, "-29:15.4".toList),
    (keyTz, "4".toList)] := rfl
  intro b hb
  rcases List.mem_cons.1 hb with rfl | hb
  · refine ⟨?_, ?_⟩
    · rw [hk]
      simp only [Readable, List.forall_mem_cons, d1, d2, d3, d4, d5, d6, d7, d8, d9, d10, d11, d12, or_self, false_imp_iff, true_and, and_true,
        true_or, or_true, true_imp_iff, h2, f1, f2]
      exact ⟨⟨_, h1⟩, by simp⟩
    · have hl : lastVal keyLat kpno.entries = some "31:57.8".toList := by decide +kernel
      rw [latOf, hl, Option.bind_some, h1]
      norm_num
  · rw [List.mem_singleton.1 hb]
    refine ⟨?_, ?_⟩
    · rw [he]
      simp only [Readable, List.forall_mem_cons, d1, d2, d3, d4, d5, d6, d7, d8, d9, d10, d11, d12, or_self, false_imp_iff, true_and, and_true,
        true_or, or_true, true_imp_iff, h3, f3]
      exact ⟨⟨_, sample_lat⟩, by simp⟩
    · have hl : lastVal keyLat eso.entries = some "-29:15.4".toList := by decide +kernel
      rw [latOf, hl, Option.bind_some, sample_lat]
      norm_num

end

end Verif.ObsDb

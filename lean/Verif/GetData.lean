import Mathlib.Data.List.Basic
import Mathlib.Data.List.Infix
import Mathlib.Logic.Function.Basic
import Mathlib.Tactic.Linarith

/-!
# The data cache (astropysics/utils/io.py 199-401)

`get_data`, `_readrem`, `set_data_store`.  The network is a function from URLs to responses that may
differ from call to call; a URL is its host, the segments of its path and the rest.  A file of the
data directory is a name with a content (names are opaque: two names are the same file only if they
are equal; the shelf `urlmap` itself is not one of them).  Progress reports are not modelled except
for the division by the content length.
-/

namespace Verif.GetData

abbrev Body := List Char

/-- A URL, as `urlsplit` sees it: `path` is the list of segments between slashes. -/
structure Url where
  host : String
  path : List String
  rest : String := ""
deriving DecidableEq, Repr

/-- A response of the server. -/
structure Response where
  /-- the `Content-Disposition` header: absent; present, with the text after `filename=` if any -/
  disposition : Option (Option String) := none
  /-- the `content-type` header, if any, and whether `html` occurs in it -/
  html : Option Bool := some false
  /-- the `content-length` header -/
  length : Option Nat := none
  body : Body

inductive Err where
  | urlError | indexError | keyError | nameError | zeroDivision | ioError | typeError
deriving DecidableEq, Repr

/-- The values of `set_data_store` (io.py 372-397). -/
inductive Store where
  | off | on | refresh
deriving DecidableEq, Repr

/-- io.py 224-266: the loop `while currres!=''` of `_readrem` with a reporter: read `n` bytes at a
time and join.  Fuel: the body length plus one rounds suffice. -/
def readLoop (n : Nat) : Nat → Body → List Body → List Body
  | 0, _, acc => acc
  | f + 1, b, acc =>
    let cur := b.take n
    if cur = [] then acc ++ [cur] else readLoop n f (b.drop n) (acc ++ [cur])

/-- The chunk size, io.py 246-254: `ceil(totbytes/100.)` above 102400 bytes, else 1024. -/
def chunkSize (len : Option Nat) : Nat :=
  match len with
  | some t => if t > 102400 then (t + 99) / 100 else 1024
  | none => 1024

/-- io.py 199-270.  `report` is whether progress is reported; then an announced length of zero
divides by zero. -/
def readRemote (report : Bool) (r : Response) : Except Err Body :=
  if report then
    if r.length = some 0 then .error .zeroDivision
    else .ok (readLoop (chunkSize r.length) (r.body.length + 1) r.body []).flatten
  else .ok r.body

/-- io.py 333: the last component of the path. -/
def basename (u : Url) : String := u.path.getLast?.getD ""

/-- `name.strip()==''` (io.py 334). -/
def blank (n : String) : Bool :=
  n.toList.all (fun c => c ∈ [' ', '\t', '\n', '\r', '\x0b', '\x0c'])

/-- io.py 326-345: the name under which the data is stored.  A URL without a file name ends in a
NameError (`startag`) for HTML pages and in a URLError otherwise. -/
def storeName (report : Bool) (u : Url) (localfn : Option String) (r : Response) :
    Except Err String :=
  match localfn with
  | some n => .ok n
  | none =>
    match r.disposition with
    | some (some n) => .ok n
    | some none => .error .indexError
    | none =>
      if blank (basename u) then
        match r.html with
        | none => .error .keyError
        | some true =>
          match readRemote report r with
          | .error e => .error e
          | .ok _ => .error .nameError
        | some false => .error .urlError
      else .ok (basename u)

/-- The data directory: files and the persistent URL map. -/
structure State where
  files : String → Option Body
  urlmap : Url → Option String

/-- The empty data directory. -/
def init : State := ⟨fun _ => none, fun _ => none⟩

/-- Where the process dies, if it does: while writing (after `k` characters), or between closing the
file and entering it in the map. -/
inductive Crash where
  | never
  | writing (k : Nat)
  | beforeMap
deriving DecidableEq, Repr

/-- What a caller sees. -/
inductive Result where
  | ok (b : Body)
  | error (e : Err)
  | died
deriving DecidableEq, Repr

/-- What a call does: result, new state, downloads (URL and body received, in order). -/
structure Outcome where
  result : Result
  state : State
  downloads : List (Url × Body)

/-- `dataurl not in url2fn or store=='refresh' or not os.path.exists(...)` (io.py 321-322). -/
def needs (s : State) (u : Url) (store : Store) : Bool :=
  match s.urlmap u with
  | none => true
  | some fn => decide (store = .refresh) || (s.files fn).isNone

/-- Open and read the mapped file (io.py 353, 361). -/
def readMapped (s : State) (u : Url) : Result :=
  match s.urlmap u with
  | none => .error .keyError
  | some fn =>
    match s.files fn with
    | some b => .ok b
    | none => .error .ioError

/-- `get_data(u, localfn=localfn)` for a URL (io.py 312-363). -/
def get (s : State) (u : Url) (localfn : Option String) (store : Store) (report : Bool)
    (net : Url → Option Response) (crash : Crash) : Outcome :=
  match store with
  | .off =>
    match net u with
    | none => ⟨.error .urlError, s, []⟩
    | some r => ⟨.ok r.body, s, [(u, r.body)]⟩
  | _ =>
    if needs s u store then
      match net u with
      | none => ⟨.error .urlError, s, []⟩
      | some r =>
        match storeName report u localfn r with
        | .error e => ⟨.error e, s, []⟩
        | .ok fn =>
          match readRemote report r with
          | .error e => ⟨.error e, s, []⟩
          | .ok b =>
            match crash with
            | .writing k => ⟨.died, { s with files := Function.update s.files fn (some (b.take k)) },
                [(u, b)]⟩
            | .beforeMap => ⟨.died, { s with files := Function.update s.files fn (some b) }, [(u, b)]⟩
            | .never =>
              let s' : State := ⟨Function.update s.files fn (some b),
                Function.update s.urlmap u (some fn)⟩
              ⟨readMapped s' u, s', [(u, b)]⟩
    else ⟨readMapped s u, s, []⟩

/-- `get_data(name)` for something that is not a URL (io.py 306-312). -/
def getLocal (s : State) (name : String) : Result :=
  match s.files name with
  | some b => .ok b
  | none => .error .ioError

/-- What can happen to the data directory. -/
inductive Op where
  | get (u : Url) (localfn : Option String) (store : Store) (report : Bool)
      (net : Url → Option Response) (crash : Crash)
  /-- somebody deletes a file -/
  | remove (fn : String)

def step (s : State) : Op → State × List (Url × Body)
  | .get u l st rp net c => let o := get s u l st rp net c; (o.state, o.downloads)
  | .remove fn => ({ s with files := Function.update s.files fn none }, [])

/-- A history: final state and all downloads. -/
def run (s : State) : List Op → State × List (Url × Body)
  | [] => (s, [])
  | op :: ops =>
    let r := step s op
    let r' := run r.1 ops
    (r'.1, r.2 ++ r'.2)

/-! ## Reading in chunks -/

theorem readLoop_flatten (n : Nat) (hn : 0 < n) (f : Nat) (b : Body) (acc : List Body)
    (hf : b.length < f) : (readLoop n f b acc).flatten = acc.flatten ++ b := by
  induction f generalizing b acc with
  | zero => omega
  | succ f ih =>
    unfold readLoop
    simp only
    by_cases h : b.take n = []
    · rw [if_pos h]
      have : b = [] := by
        rcases List.take_eq_nil_iff.mp h with h | h
        · omega
        · exact h
      subst this
      simp
    · rw [if_neg h]
      have hl : 0 < b.length := by
        rcases b with _ | ⟨x, b⟩
        · simp at h
        · simp
      rw [ih _ _ (by rw [List.length_drop]; omega)]
      simp [List.append_assoc]

theorem chunkSize_pos (len : Option Nat) : 0 < chunkSize len := by
  unfold chunkSize
  split
  · split_ifs <;> omega
  · omega

/-- Reading a response in chunks, with whatever announced length, yields its whole body; only an
announced length of zero fails (when progress is reported). -/
theorem readRemote_eq (report : Bool) (r : Response) :
    readRemote report r =
      if report = true ∧ r.length = some 0 then .error .zeroDivision else .ok r.body := by
  unfold readRemote
  by_cases hr : report = true
  · simp only [hr, if_true, true_and]
    split_ifs
    · rfl
    · rw [readLoop_flatten _ (chunkSize_pos _) _ _ _ (by omega)]; simp
  · simp [hr]

example : readRemote true { body := List.replicate 3000 'x', length := some 3000 }
    = .ok (List.replicate 3000 'x') := by
  rw [readRemote_eq, if_neg (by simp)]

/-! ## Downloaded once -/

/-- The name under which an operation stores data, if it does. -/
def writesTo : Op → Option String
  | .get u l _ rp net _ =>
    match net u with
    | none => none
    | some r => (storeName rp u l r).toOption
  | .remove fn => some fn

/-- An operation that leaves the file `fn` of the URL `u` alone: a request for `u` itself that does
not refresh, or anything that writes no file of that name. -/
def Leaves (u : Url) (fn : String) : Op → Prop
  | .get u' l st rp net c => (u' = u ∧ st ≠ .refresh) ∨ (u' ≠ u ∧ writesTo (.get u' l st rp net c) ≠ some fn)
  | .remove fn' => fn' ≠ fn

theorem get_ok_entry {s : State} {u : Url} {l st rp net c b}
    (hst : st ≠ .off) (h : (get s u l st rp net c).result = .ok b) :
    ∃ fn, (get s u l st rp net c).state.urlmap u = some fn ∧
      (get s u l st rp net c).state.files fn = some b := by
  have key : ∀ s' : State, readMapped s' u = .ok b → ∃ fn, s'.urlmap u = some fn ∧
      s'.files fn = some b := by
    intro s' h'
    unfold readMapped at h'
    split at h'
    · cases h'
    · rename_i fn hfn
      split at h'
      · rename_i b' hb
        cases h'
        exact ⟨fn, hfn, hb⟩
      · cases h'
  unfold get at h ⊢
  split at h
  · exact absurd rfl hst
  · split_ifs at h ⊢ with hn
    · revert h
      cases net u with
      | none => simp
      | some r =>
        simp only
        cases storeName rp u l r with
        | error e => simp
        | ok fn =>
          simp only
          cases readRemote rp r with
          | error e => simp
          | ok b' =>
            cases c with
            | never => intro h; exact key _ h
            | writing k => simp
            | beforeMap => simp
    · exact key _ h

theorem step_leaves {s : State} {u : Url} {fn : String} {b : Body} {op : Op}
    (hm : s.urlmap u = some fn) (hf : s.files fn = some b) (hl : Leaves u fn op) :
    (step s op).1.urlmap u = some fn ∧ (step s op).1.files fn = some b := by
  cases op with
  | remove fn' =>
    simp only [step, Leaves] at hl ⊢
    exact ⟨hm, by rw [Function.update_of_ne (Ne.symm hl)]; exact hf⟩
  | get u' l st rp net c =>
    simp only [step]
    unfold get
    split
    · cases net u' <;> exact ⟨hm, hf⟩
    · rename_i hst
      split_ifs with hn
      · rcases hl with ⟨rfl, hr⟩ | ⟨hu, hw⟩
        · exfalso
          unfold needs at hn
          rw [hm] at hn
          simp [hf, hr] at hn
        · unfold writesTo at hw
          cases hnet : net u' with
          | none => exact ⟨hm, hf⟩
          | some r =>
            simp only [hnet] at hw
            cases hs : storeName rp u' l r with
            | error e => simp only [hs]; exact ⟨hm, hf⟩
            | ok fn' =>
              have hne : fn ≠ fn' := by
                intro h; apply hw; rw [hs, h]; rfl
              simp only [hs]
              cases readRemote rp r with
              | error e => exact ⟨hm, hf⟩
              | ok b' =>
                cases c with
                | writing k => exact ⟨hm, by simp only; rw [Function.update_of_ne hne]; exact hf⟩
                | beforeMap => exact ⟨hm, by simp only; rw [Function.update_of_ne hne]; exact hf⟩
                | never =>
                  simp only
                  exact ⟨by rw [Function.update_of_ne (Ne.symm hu)]; exact hm,
                    by rw [Function.update_of_ne hne]; exact hf⟩
      · exact ⟨hm, hf⟩

/-- C37, downloaded once: after a call that returned `b` and stored it, and any history that leaves
its file alone (requests for other URLs stored under other names, crashes in them, requests for the
same URL with any local name, servers changing or going away), a call returns `b` again, downloads
nothing and changes nothing. -/
theorem downloaded_once (s : State) (u : Url) (l : Option String) (st : Store) (rp : Bool)
    (net : Url → Option Response) (c : Crash) (b : Body) (hst : st ≠ .off)
    (h : (get s u l st rp net c).result = .ok b) (fn : String)
    (hfn : (get s u l st rp net c).state.urlmap u = some fn)
    (ops : List Op) (hops : ∀ op ∈ ops, Leaves u fn op)
    (l' : Option String) (rp' : Bool) (net' : Url → Option Response) (c' : Crash) :
    let s' := (run (get s u l st rp net c).state ops).1
    get s' u l' .on rp' net' c' = ⟨.ok b, s', []⟩ := by
  obtain ⟨fn', h1, h2⟩ := get_ok_entry hst h
  rw [hfn] at h1
  cases h1
  have key : ∀ (ops : List Op) (s : State), s.urlmap u = some fn → s.files fn = some b →
      (∀ op ∈ ops, Leaves u fn op) →
      (run s ops).1.urlmap u = some fn ∧ (run s ops).1.files fn = some b := by
    intro ops
    induction ops with
    | nil => intro s a b _; exact ⟨a, b⟩
    | cons op ops ih =>
      intro s a b hl
      obtain ⟨a', b'⟩ := step_leaves a b (hl op (by simp))
      exact ih _ a' b' (fun o ho => hl o (by simp [ho]))
  obtain ⟨h3, h4⟩ := key ops _ hfn h2 hops
  intro s'
  change s'.urlmap u = some fn at h3
  change s'.files fn = some b at h4
  have hn : needs s' u .on = false := by unfold needs; rw [h3]; simp [h4]
  unfold get
  simp only [hn, Bool.false_eq_true, if_false]
  have : readMapped s' u = .ok b := by unfold readMapped; rw [h3]; simp only [h4]
  rw [this]

/-- A refresh returns what the server has now, whatever was stored before. -/
theorem refresh_current (s : State) (u : Url) (l : Option String) (rp : Bool)
    (net : Url → Option Response) (b : Body)
    (h : (get s u l .refresh rp net .never).result = .ok b) :
    ∃ r, net u = some r ∧ b = r.body := by
  have hn : needs s u .refresh = true := by unfold needs; split <;> simp
  unfold get at h
  simp only [hn, if_true] at h
  revert h
  cases hr : net u with
  | none => simp
  | some r =>
    simp only
    cases storeName rp u l r with
    | error e => simp
    | ok fn =>
      simp only [readRemote_eq]
      split_ifs
      · simp
      · simp only [readMapped, Function.update_self]
        intro h
        cases h
        exact ⟨r, rfl, rfl⟩

/-! ## Never another URL's data -/

/-- The requests of a history store each URL under a name of its own. -/
def Named (name : Url → String) : Op → Prop
  | .get u l st rp net c => writesTo (.get u l st rp net c) = none ∨
      writesTo (.get u l st rp net c) = some (name u)
  | .remove _ => True

/-- Invariant: mapped names are the URLs' own, and each file is (the beginning of) a download of the
URL of that name. -/
structure Own (name : Url → String) (s : State) (log : List (Url × Body)) : Prop where
  mapped : ∀ u fn, s.urlmap u = some fn → fn = name u
  content : ∀ u b, s.files (name u) = some b → ∃ b', (u, b') ∈ log ∧ b <+: b'

theorem own_mono {name s log log'} (h : Own name s log) (hl : ∀ x ∈ log, x ∈ log') :
    Own name s log' :=
  ⟨h.mapped, fun u b hb => by
    obtain ⟨b', h1, h2⟩ := h.content u b hb
    exact ⟨b', hl _ h1, h2⟩⟩

theorem own_step {name : Url → String} (inj : Function.Injective name) {s log} {op : Op}
    (h : Own name s log) (hop : Named name op) :
    Own name (step s op).1 (log ++ (step s op).2) := by
  cases op with
  | remove fn =>
    simp only [step, List.append_nil]
    refine ⟨h.mapped, ?_⟩
    intro u b hb
    simp only at hb
    by_cases hf : name u = fn
    · rw [← hf, Function.update_self] at hb; cases hb
    · rw [Function.update_of_ne hf] at hb; exact h.content u b hb
  | get u l st rp net c =>
    simp only [step]
    have hmono : ∀ x : List (Url × Body), Own name s (log ++ x) :=
      fun x => own_mono h (fun y hy => by simp [hy])
    have hfile : ∀ (b c : Body), c <+: b → ∀ m : Url → Option String,
        (∀ u' fn, m u' = some fn → fn = name u') →
        Own name ⟨Function.update s.files (name u) (some c), m⟩ (log ++ [(u, b)]) := by
      intro b c hc m hm
      refine ⟨hm, ?_⟩
      intro u' b'' hb
      simp only at hb
      by_cases hf : name u' = name u
      · rw [hf, Function.update_self] at hb
        have := inj hf
        subst this
        cases hb
        exact ⟨b, by simp, hc⟩
      · rw [Function.update_of_ne hf] at hb
        obtain ⟨b', h1, h2⟩ := h.content u' b'' hb
        exact ⟨b', by simp [h1], h2⟩
    unfold Named writesTo at hop
    unfold get
    split
    · cases net u <;> exact hmono _
    · split_ifs with hn
      · cases hnet : net u with
        | none => exact hmono _
        | some r =>
          simp only [hnet] at hop
          cases hs : storeName rp u l r with
          | error e => simp only [hs]; exact hmono _
          | ok fn =>
            rw [hs] at hop
            have hfn : fn = name u := by simpa [Except.toOption] using hop
            subst hfn
            simp only [hs]
            cases readRemote rp r with
            | error e => exact hmono _
            | ok b =>
              cases c with
              | writing k => exact hfile b _ (List.take_prefix _ _) _ h.mapped
              | beforeMap => exact hfile b b (List.prefix_rfl) _ h.mapped
              | never =>
                refine hfile b b (List.prefix_rfl) _ ?_
                intro u' fn hm
                by_cases hu : u' = u
                · subst hu; rw [Function.update_self] at hm; cases hm; rfl
                · rw [Function.update_of_ne hu] at hm; exact h.mapped u' fn hm
      · exact hmono _

theorem own_run {name : Url → String} (inj : Function.Injective name) (ops : List Op) :
    ∀ {s log}, Own name s log → (∀ op ∈ ops, Named name op) →
      Own name (run s ops).1 (log ++ (run s ops).2) := by
  induction ops with
  | nil => intro s log h _; simpa [run] using h
  | cons op ops ih =>
    intro s log h hop
    have := ih (own_step inj h (hop op (by simp))) (fun o ho => hop o (by simp [ho]))
    simp only [run]
    rw [← List.append_assoc]
    exact this

/-- C37, never another URL's data (partial: for histories in which the stored names of different URLs
differ): whatever happened — including processes that died at any point, files removed, servers that
changed — a call returns something that was at some time downloaded from this very URL, or the
beginning of it. -/
theorem own_data (name : Url → String) (inj : Function.Injective name) (ops : List Op)
    (hops : ∀ op ∈ ops, Named name op) (u : Url) (l st rp net c) (b : Body)
    (hlast : Named name (.get u l st rp net c))
    (h : (get (run init ops).1 u l st rp net c).result = .ok b) :
    ∃ b', (u, b') ∈ (run init ops).2 ++ (get (run init ops).1 u l st rp net c).downloads ∧ b <+: b' := by
  by_cases hst : st = .off
  · subst hst
    unfold get at h ⊢
    cases hr : net u with
    | none => simp [hr] at h
    | some r =>
      simp only [hr] at h ⊢
      cases h
      exact ⟨r.body, by simp, List.prefix_rfl⟩
  · obtain ⟨fn, h1, h2⟩ := get_ok_entry hst h
    have h0 : Own name init [] := ⟨by simp [init], by simp [init]⟩
    have hr := own_run inj ops h0 hops
    have hs := own_step inj hr hlast
    simp only [step] at hs
    have hfn := hs.mapped u fn h1
    subst hfn
    obtain ⟨b', h3, h4⟩ := hs.content u b h2
    exact ⟨b', by simpa using h3, h4⟩

/-- A history without a process dying while writing. -/
def NoTornWrite : Op → Prop
  | .get _ _ _ _ _ (.writing _) => False
  | _ => True

/-- Stronger invariant: files are whole downloads. -/
def Whole (name : Url → String) (s : State) (log : List (Url × Body)) : Prop :=
  ∀ u b, s.files (name u) = some b → (u, b) ∈ log

theorem whole_step {name : Url → String} (inj : Function.Injective name) {s log} {op : Op}
    (h : Whole name s log) (hop : Named name op) (hw : NoTornWrite op) :
    Whole name (step s op).1 (log ++ (step s op).2) := by
  cases op with
  | remove fn =>
    simp only [step, List.append_nil]
    intro u b hb
    simp only at hb
    by_cases hf : name u = fn
    · rw [← hf, Function.update_self] at hb; cases hb
    · rw [Function.update_of_ne hf] at hb; exact h u b hb
  | get u l st rp net c =>
    simp only [step]
    have hmono : ∀ x : List (Url × Body), Whole name s (log ++ x) :=
      fun x u b hb => by simp [h u b hb]
    have hfile : ∀ (b : Body), ∀ m : Url → Option String,
        Whole name ⟨Function.update s.files (name u) (some b), m⟩ (log ++ [(u, b)]) := by
      intro b m u' b'' hb
      simp only at hb
      by_cases hf : name u' = name u
      · rw [hf, Function.update_self] at hb
        have := inj hf
        subst this
        cases hb
        simp
      · rw [Function.update_of_ne hf] at hb
        simp [h u' b'' hb]
    unfold Named writesTo at hop
    unfold get
    split
    · cases net u <;> exact hmono _
    · split_ifs with hn
      · cases hnet : net u with
        | none => exact hmono _
        | some r =>
          simp only [hnet] at hop
          cases hs : storeName rp u l r with
          | error e => simp only [hs]; exact hmono _
          | ok fn =>
            rw [hs] at hop
            have hfn : fn = name u := by simpa [Except.toOption] using hop
            subst hfn
            simp only [hs]
            cases readRemote rp r with
            | error e => exact hmono _
            | ok b =>
              cases c with
              | writing k => exact absurd hw (by simp [NoTornWrite])
              | beforeMap => exact hfile b _
              | never => exact hfile b _
      · exact hmono _

/-- ... and exactly a download of this URL, when no process died in the middle of a write. -/
theorem own_data_whole (name : Url → String) (inj : Function.Injective name) (ops : List Op)
    (hops : ∀ op ∈ ops, Named name op ∧ NoTornWrite op) (u : Url) (l st rp net c) (b : Body)
    (hlast : Named name (.get u l st rp net c)) (hw : NoTornWrite (.get u l st rp net c))
    (h : (get (run init ops).1 u l st rp net c).result = .ok b) :
    (u, b) ∈ (run init ops).2 ++ (get (run init ops).1 u l st rp net c).downloads := by
  by_cases hst : st = .off
  · subst hst
    unfold get at h ⊢
    cases hr : net u with
    | none => simp [hr] at h
    | some r =>
      simp only [hr] at h ⊢
      cases h
      simp
  · obtain ⟨fn, h1, h2⟩ := get_ok_entry hst h
    have h0 : Own name init [] := ⟨by simp [init], by simp [init]⟩
    have hr := own_run inj ops h0 (fun o ho => (hops o ho).1)
    have hs := own_step inj hr hlast
    have hfn := hs.mapped u fn h1
    have hwr : ∀ (ops : List Op) s log, Whole name s log → (∀ op ∈ ops, Named name op ∧ NoTornWrite op) →
        Whole name (run s ops).1 (log ++ (run s ops).2) := by
      intro ops
      induction ops with
      | nil => intro s log h _; simpa [run] using h
      | cons op ops ih =>
        intro s log h hop
        have := ih _ _ (whole_step inj h (hop op (by simp)).1 (hop op (by simp)).2)
          (fun o ho => hop o (by simp [ho]))
        simp only [run]
        rw [← List.append_assoc]
        exact this
    have hw0 := hwr ops init [] (by intro u b hb; simp [init] at hb) hops
    have hws := whole_step inj hw0 hlast hw
    simp only [step] at hws
    subst hfn
    simpa using hws u b h2

/-! ## Crashes -/

/-- A process that dies during the first download of a URL — at any point — does no harm to that
URL: the next call downloads again and returns what the server then sends. -/
theorem crash_first_download_safe (s : State) (u : Url) (hu : s.urlmap u = none)
    (l rp net) (c : Crash) (hc : c ≠ .never) (st : Store)
    (l' : Option String) (rp' : Bool) (net' : Url → Option Response) (r : Response) (fn : String)
    (hr : net' u = some r) (hn : storeName rp' u l' r = .ok fn) (hz : r.length ≠ some 0) :
    let o := get (get s u l st rp net c).state u l' .on rp' net' .never
    o.result = .ok r.body ∧ o.downloads = [(u, r.body)] := by
  intro o
  have hm : (get s u l st rp net c).state.urlmap u = none := by
    unfold get
    split
    · cases net u <;> exact hu
    · split_ifs
      · cases net u with
        | none => exact hu
        | some r =>
          simp only
          cases storeName rp u l r with
          | error e => exact hu
          | ok fn =>
            simp only
            cases readRemote rp r with
            | error e => exact hu
            | ok b =>
              cases c with
              | never => exact absurd rfl hc
              | writing k => exact hu
              | beforeMap => exact hu
      · exact hu
  have hneeds : needs (get s u l st rp net c).state u .on = true := by
    unfold needs; rw [hm]
  have hrr : readRemote rp' r = .ok r.body := by
    rw [readRemote_eq, if_neg (by tauto)]
  have : o = get (get s u l st rp net c).state u l' .on rp' net' .never := rfl
  rw [this]
  generalize (get s u l st rp net c).state = s1 at *
  unfold get
  simp only [hneeds, if_true, hr, hn, hrr, readMapped, Function.update_self, and_self]

/-! ## Where the data is stored -/

/-- Specification: the name a response is stored under: the name the caller gives, else the one the server gives, else the last
component of the URL. -/
def NameFor (u : Url) (localfn : Option String) (r : Response) (n : String) : Prop :=
  localfn = some n ∨ localfn = none ∧ r.disposition = some (some n) ∨
    localfn = none ∧ r.disposition = none ∧ u.path.getLast? = some n ∧ ∃ c ∈ n.toList, c ∉ [' ', '\t', '\n', '\r', '\x0b', '\x0c']

/-- If the URL is not in the map, or its file has been deleted, or a refresh is asked for, the data is downloaded (again), returned,
and stored in the file of that name, where a local request finds it; other files and URLs are left alone. -/
theorem stored_under_name (s : State) (u : Url) (l : Option String) (st : Store) (hst : st ≠ .off) (rp : Bool) (net : Url → Option Response)
    (r : Response) (n : String) (hr : net u = some r) (hn : NameFor u l r n) (h0 : rp = true → r.length ≠ some 0)
    (hneed : s.urlmap u = none ∨ st = .refresh ∨ ∃ fn, s.urlmap u = some fn ∧ s.files fn = none) :
    ∃ s', get s u l st rp net .never = ⟨.ok r.body, s', [(u, r.body)]⟩ ∧ s'.urlmap u = some n ∧ getLocal s' n = .ok r.body ∧
      (∀ u', u' ≠ u → s'.urlmap u' = s.urlmap u') ∧ (∀ n', n' ≠ n → s'.files n' = s.files n') := by
  have hneeds : needs s u st = true := by
    unfold needs
    rcases hneed with h | h | ⟨fn, h1, h2⟩
    · rw [h]
    · subst h; split <;> simp
    · rw [h1]; simp [h2]
  have hname : storeName rp u l r = .ok n := by
    rcases hn with rfl | ⟨rfl, h⟩ | ⟨rfl, h1, h2, c, hc, hcs⟩
    · rfl
    · simp [storeName, h]
    · have hb : blank (basename u) = false := by
        unfold basename blank
        rw [h2, Option.getD_some, ← Bool.not_eq_true, List.all_eq_true]
        intro hall
        have := hall c hc
        rw [decide_eq_true_eq] at this
        exact hcs this
      simp only [storeName, h1, hb, Bool.false_eq_true, if_false]
      simp [basename, h2]
  have hread : readRemote rp r = .ok r.body := by
    rw [readRemote_eq, if_neg (fun h => h0 h.1 h.2)]
  refine ⟨⟨Function.update s.files n (some r.body), Function.update s.urlmap u (some n)⟩, ?_, by simp, by simp [getLocal], ?_, ?_⟩
  · unfold get
    cases st with
    | off => exact absurd rfl hst
    | on => simp only [hneeds, if_true, hr, hname, hread, readMapped, Function.update_self]
    | refresh => simp only [hneeds, if_true, hr, hname, hread, readMapped, Function.update_self]
  · intro u' h; simp [Function.update_of_ne h]
  · intro n' h; simp [Function.update_of_ne h]

/-! ## Counterexamples -/

def uA : Url := { host := "a.org", path := ["2009", "table.dat"] }
def uB : Url := { host := "b.org", path := ["table.dat"] }

/-- A network on which each URL serves its own text. -/
def netAB : Url → Option Response := fun u =>
  if u = uA then some { body := ['A'] } else if u = uB then some { body := ['B'] } else none

/-- C37 refuted: two URLs that end in the same file name share one file, so the cached data of the
first is replaced by the data of the second — from an empty cache, with default settings and no
crash. -/
theorem other_urls_data :
    let s1 := (get init uA none .on true netAB .never).state
    let s2 := (get s1 uB none .on true netAB .never).state
    (get init uA none .on true netAB .never).result = .ok ['A'] ∧
    (get s2 uA none .on true netAB .never).result = .ok ['B'] := by
  decide +kernel

/-- A process that dies while refreshing leaves a truncated file that later calls return. -/
theorem crash_in_refresh_truncates :
    let net : Url → Option Response := fun _ => some { body := "new data".toList }
    let s1 := (get init uA none .on true netAB .never).state
    let s2 := (get s1 uA none .refresh true net (.writing 3)).state
    (get s2 uA none .on true net .never).result = .ok "new".toList := by
  decide +kernel

/-- A local name given for a URL that is already stored has no effect: no such file appears. -/
theorem localfn_ignored_when_cached (s : State) (u : Url) (fn n : String) (b : Body)
    (h1 : s.urlmap u = some fn) (h2 : s.files fn = some b) (rp net c) :
    (get s u (some n) .on rp net c).state = s := by
  have : needs s u .on = false := by unfold needs; rw [h1]; simp [h2]
  unfold get
  simp only [this, Bool.false_eq_true, if_false]

/-- A URL that ends in a slash can never be stored (unless a name comes with it): every call raises,
whatever the server sends. -/
theorem no_file_name_always_fails (s : State) (u : Url) (hu : blank (basename u) = true)
    (hm : s.urlmap u = none) (rp : Bool) (net : Url → Option Response) (c : Crash)
    (hd : ∀ r, net u = some r → r.disposition = none) (st : Store) (hst : st ≠ .off) :
    ∃ e, (get s u none st rp net c).result = .error e ∧ (get s u none st rp net c).state = s := by
  have hn : needs s u st = true := by unfold needs; rw [hm]
  unfold get
  cases st with
  | off => exact absurd rfl hst
  | on | refresh =>
    simp only [hn, if_true]
    cases hr : net u with
    | none => exact ⟨_, rfl, rfl⟩
    | some r =>
      simp only [storeName, hd r hr, hu, if_true]
      rcases r.html with _ | _ | _
      · exact ⟨_, rfl, rfl⟩
      · exact ⟨_, rfl, rfl⟩
      · cases readRemote rp r with
        | error e => exact ⟨_, rfl, rfl⟩
        | ok b => exact ⟨_, rfl, rfl⟩

/-- An empty remote file whose length is announced cannot be fetched with the default reporter. -/
theorem empty_file_fails (s : State) (u : Url) (hm : s.urlmap u = none) (n : String)
    (net : Url → Option Response) (r : Response) (hr : net u = some r) (h0 : r.length = some 0)
    (c : Crash) : (get s u (some n) .on true net c).result = .error .zeroDivision := by
  have hn : needs s u .on = true := by unfold needs; rw [hm]
  unfold get
  simp only [hn, if_true, hr, storeName, readRemote_eq, h0, and_self]

/-- Non-vacuity of `downloaded_once`: after storing A's file, a request for another host stored under
another name, a crash in such a request, and repeated requests leave it alone. -/
example : ∀ op ∈ [Op.get uB (some "b.dat") .on true netAB .never,
      Op.get uA (some "other") .on true netAB .never,
      Op.get uB (some "b.dat") .refresh true netAB (.writing 0), Op.remove "b.dat"],
    Leaves uA "table.dat" op := by
  intro op h
  simp only [List.mem_cons, List.not_mem_nil, or_false] at h
  rcases h with rfl | rfl | rfl | rfl
  · right; exact ⟨by decide, by simp [writesTo, netAB, uA, uB, storeName, Except.toOption]⟩
  · left; exact ⟨rfl, by decide⟩
  · right; exact ⟨by decide, by simp [writesTo, netAB, uA, uB, storeName, Except.toOption]⟩
  · simp [Leaves]

example : (get init uA none .on true netAB .never).state.urlmap uA = some "table.dat" := by
  decide +kernel

end Verif.GetData

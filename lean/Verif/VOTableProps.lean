import Verif.VOTable
/-!
# C129, C130: what `VOTableReader` gives back
-/
namespace Verif.VOTable
variable {V : Type}

/-! ## Specification: documents -/

/-- what may stand in a TABLE before its DATA -/
inductive TItem where
  | field (e : Elem) | param (e : Elem) | desc (t : Str) | other

/-- a TABLE element: attributes, the items before the data, the children of TABLEDATA -/
structure Table where
  name : Option Str
  nrows : Option Str
  items : List TItem
  nodes : List Node

/-- what may stand in a RESOURCE -/
inductive RItem where
  | param (e : Elem) | desc (t : Str) | other | table (t : Table)

/-- what may stand at the top -/
inductive DItem where
  | param (e : Elem) | desc (t : Str) | other | res (name : Option Str) (items : List RItem)

/-- the parser's events for these -/
def evI : TItem → Ev
  | .field e => .field e
  | .param e => .param e
  | .desc t => .desc (some t)
  | .other => .other

def evT (t : Table) : List Ev :=
  .tabStart false t.name t.nrows :: (t.items.map evI ++ [.dataStart, .tabledata t.nodes, .other, .tabEnd])

def evR : RItem → List Ev
  | .param e => [.param e]
  | .desc t => [.desc (some t)]
  | .other => [.other]
  | .table t => evT t

def evD : DItem → List Ev
  | .param e => [.param e]
  | .desc t => [.desc (some t)]
  | .other => [.other]
  | .res n items => .resStart n :: (items.flatMap evR ++ [.resEnd])

def events (d : List DItem) : List Ev := d.flatMap evD

/-- the parameters of a table / resource / document, in order -/
def tpars (np : Np V) (l : List TItem) : List Info :=
  l.filterMap fun | .param e => (extractParam np.accepts e).toOption | _ => none
def tfields (l : List TItem) : List Info :=
  l.filterMap fun | .field e => (extractField e).toOption | _ => none

/-- a table in its place: the name of its resource, the parameters of the document and of the resource that
stand before it, its number in the document -/
structure Placed where
  res : Str
  vo : List Info
  rp : List Info
  num : Nat
  t : Table

/-- number of tables in a list of items -/
def ntab : List RItem → Nat
  | [] => 0
  | .table _ :: r => ntab r + 1
  | _ :: r => ntab r

def placedR (np : Np V) (res : Str) (vo : List Info) : List Info → Nat → List RItem → List Placed
  | _, _, [] => []
  | rp, n, .param e :: r => placedR np res vo (rp ++ (extractParam np.accepts e).toOption.toList) n r
  | rp, n, .table t :: r => ⟨res, vo, rp, n + 1, t⟩ :: placedR np res vo rp (n + 1) r
  | rp, n, .desc _ :: r => placedR np res vo rp n r
  | rp, n, .other :: r => placedR np res vo rp n r

/-- name of the `n`th resource -/
def resName (name : Option Str) (n : Nat) : Str := name.getD ("res".toList ++ Nat.toDigits 10 n)

def placedD (np : Np V) : List Info → Nat → Nat → List DItem → List Placed
  | _, _, _, [] => []
  | vo, rc, n, .param e :: r => placedD np (vo ++ (extractParam np.accepts e).toOption.toList) rc n r
  | vo, rc, n, .res nm items :: r =>
    placedR np (resName nm (rc + 1)) vo [] n items ++ placedD np vo (rc + 1) (n + ntab items) r
  | vo, rc, n, .desc _ :: r => placedD np vo rc n r
  | vo, rc, n, .other :: r => placedD np vo rc n r

/-- all tables of a document in their places -/
def placed (np : Np V) (d : List DItem) : List Placed := placedD np [] 0 0 d

/-- the documented name: "resource:name", or "tab" and the number of the table -/
def rawName (p : Placed) : Str :=
  match p.t.name with
  | some n => p.res ++ [':'] ++ n
  | none => "tab".toList ++ Nat.toDigits 10 p.num

/-- names actually given: a name already taken gets "_" and the number of the table -/
def keyed : List Str → List Placed → List (Str × Placed)
  | _, [] => []
  | used, p :: r =>
    let k := if rawName p ∈ used then rawName p ++ ['_'] ++ Nat.toDigits 10 p.num else rawName p
    (k, p) :: keyed (used ++ [k]) r

/-- a cell is convertible -/
def CellOk (np : Np V) (dt : Str) : Cell → Prop
  | .empty => True
  | .text s => ∃ v, np.conv dt (some s) = .ok v
  | .elem => ∃ v, np.conv dt none = .ok v
  | .other => False

/-- the TR elements of a table -/
def trs (l : List Node) : List (List Cell) :=
  l.filterMap fun | .tr c => some c | _ => none

structure GoodTable (np : Np V) (p : Placed) : Prop where
  fields : ∀ e, TItem.field e ∈ p.t.items → ∃ f, extractField e = .ok f
  params : ∀ e, TItem.param e ∈ p.t.items → ∃ f, extractParam np.accepts e = .ok f
  nrows : p.t.nrows = none ∨ p.t.nrows = some []
  ascii : ∀ f ∈ tfields p.t.items ++ p.vo ++ p.rp ++ tpars np p.t.items, ∀ c ∈ f.name, c.val < 128
  types : ∀ f ∈ tfields p.t.items, okCode f.body = true
  nodup : ((tfields p.t.items).map Info.name).Nodup
  nodes : ∀ n ∈ p.t.nodes, n ≠ .other
  cells : ∀ c ∈ trs p.t.nodes, c.length ≤ (tfields p.t.items).length ∧
    ∀ (j : Nat) (x : Cell) (f : Info), c[j]? = some x → (tfields p.t.items)[j]? = some f → CellOk np f.body x

/-- parameters readable, resource names not empty -/
def GoodR (np : Np V) : RItem → Prop
  | .param e => ∃ f, extractParam np.accepts e = .ok f
  | _ => True

def GoodD (np : Np V) : DItem → Prop
  | .param e => ∃ f, extractParam np.accepts e = .ok f
  | .res n items => n ≠ some [] ∧ ∀ i ∈ items, GoodR np i
  | _ => True

/-- the last parameter of that name -/
def lastPar (n : Str) (l : List Info) : Option Info := (l.filter (fun p => decide (p.name = n))).getLast?

/-! ## Rows -/

theorem row_len (np : Np V) : ∀ (dts : List Str) (cs : List Cell) l, row np dts cs = .ok l →
    l.length = dts.length ∧ cs.length ≤ dts.length
  | dts, [], l, h => by
    simp only [row, Except.ok.injEq] at h; subst h; simp
  | [], .other :: _, l, h => by simp [row] at h
  | [], .empty :: _, l, h => by simp [row] at h
  | [], .text _ :: _, l, h => by simp [row] at h
  | [], .elem :: _, l, h => by simp [row] at h
  | _ :: _, .other :: _, l, h => by simp [row] at h
  | dt :: dts, .empty :: r, l, h => by
    unfold row at h
    cases hr : row np dts r with
    | error x => rw [hr] at h; simp at h
    | ok m =>
      rw [hr] at h; simp only [Except.ok.injEq] at h; subst h
      have := row_len np dts r m hr
      simp [this.1, this.2]
  | dt :: dts, .text s :: r, l, h => by
    unfold row at h
    cases hc : np.conv dt (some s) with
    | error x => rw [hc] at h; simp at h
    | ok v =>
      rw [hc] at h
      cases hr : row np dts r with
      | error x => rw [hr] at h; simp at h
      | ok m =>
        rw [hr] at h; simp only [Except.ok.injEq] at h; subst h
        have := row_len np dts r m hr
        simp [this.1, this.2]
  | dt :: dts, .elem :: r, l, h => by
    unfold row at h
    cases hc : np.conv dt none with
    | error x => rw [hc] at h; simp at h
    | ok v =>
      rw [hc] at h
      cases hr : row np dts r with
      | error x => rw [hr] at h; simp at h
      | ok m =>
        rw [hr] at h; simp only [Except.ok.injEq] at h; subst h
        have := row_len np dts r m hr
        simp [this.1, this.2]

/-- what a cell of the table must be, given the TD at its place (`none`: the row has no such TD) -/
def CellIs (np : Np V) (dt : Str) (td : Option Cell) (r : Option V × Bool) : Prop :=
  (∀ s, td = some (.text s) → ∃ v, np.conv dt (some s) = .ok v ∧ r = (some v, true)) ∧
  (td = some .empty → r = (some (np.zero dt), false)) ∧
  (td = some .elem → ∃ v, np.conv dt none = .ok v ∧ r = (some v, true)) ∧
  (td = none → r = (none, true))

theorem row_cells (np : Np V) : ∀ (dts : List Str) (cs : List Cell) l, row np dts cs = .ok l →
    (∀ c ∈ cs, c ≠ .other) ∧
    ∀ (j : Nat) (dt : Str), dts[j]? = some dt → ∃ r, l[j]? = some r ∧ CellIs np dt cs[j]? r
  | dts, [], l, h => by
    simp only [row, Except.ok.injEq] at h; subst h
    refine ⟨by simp, fun j dt hj => ⟨(none, true), by rw [List.getElem?_map, hj]; rfl, by simp [CellIs]⟩⟩
  | [], .other :: _, l, h => by simp [row] at h
  | [], .empty :: _, l, h => by simp [row] at h
  | [], .text _ :: _, l, h => by simp [row] at h
  | [], .elem :: _, l, h => by simp [row] at h
  | _ :: _, .other :: _, l, h => by simp [row] at h
  | dt :: dts, .empty :: r, l, h => by
    unfold row at h
    cases hr : row np dts r with
    | error x => rw [hr] at h; simp at h
    | ok m =>
      rw [hr] at h; simp only [Except.ok.injEq] at h; subst h
      have ih := row_cells np dts r m hr
      refine ⟨by simpa using ih.1, fun j d hj => ?_⟩
      cases j with
      | zero =>
        simp only [List.getElem?_cons_zero, Option.some.injEq] at hj; subst hj
        exact ⟨_, rfl, by simp [CellIs]⟩
      | succ j => simpa using ih.2 j d (by simpa using hj)
  | dt :: dts, .text s :: r, l, h => by
    unfold row at h
    cases hc : np.conv dt (some s) with
    | error x => rw [hc] at h; simp at h
    | ok v =>
      rw [hc] at h
      cases hr : row np dts r with
      | error x => rw [hr] at h; simp at h
      | ok m =>
        rw [hr] at h; simp only [Except.ok.injEq] at h; subst h
        have ih := row_cells np dts r m hr
        refine ⟨by simpa using ih.1, fun j d hj => ?_⟩
        cases j with
        | zero =>
          simp only [List.getElem?_cons_zero, Option.some.injEq] at hj; subst hj
          exact ⟨_, rfl, by simp [CellIs, hc]⟩
        | succ j => simpa using ih.2 j d (by simpa using hj)
  | dt :: dts, .elem :: r, l, h => by
    unfold row at h
    cases hc : np.conv dt none with
    | error x => rw [hc] at h; simp at h
    | ok v =>
      rw [hc] at h
      cases hr : row np dts r with
      | error x => rw [hr] at h; simp at h
      | ok m =>
        rw [hr] at h; simp only [Except.ok.injEq] at h; subst h
        have ih := row_cells np dts r m hr
        refine ⟨by simpa using ih.1, fun j d hj => ?_⟩
        cases j with
        | zero =>
          simp only [List.getElem?_cons_zero, Option.some.injEq] at hj; subst hj
          exact ⟨_, rfl, by simp [CellIs, hc]⟩
        | succ j => simpa using ih.2 j d (by simpa using hj)

theorem row_succeeds (np : Np V) : ∀ (dts : List Str) (cs : List Cell), cs.length ≤ dts.length →
    (∀ (j : Nat) (x : Cell) (dt : Str), cs[j]? = some x → dts[j]? = some dt → CellOk np dt x) → ∃ l, row np dts cs = .ok l
  | dts, [], _, _ => ⟨_, by unfold row; rfl⟩
  | [], _ :: _, h, _ => by simp at h
  | dt :: dts, c :: r, h, hc => by
    obtain ⟨l, hl⟩ := row_succeeds np dts r (by simpa using h)
      (fun j x d h1 h2 => hc (j + 1) x d (by simpa using h1) (by simpa using h2))
    have h0 := hc 0 c dt rfl rfl
    cases c with
    | empty => exact ⟨_, by unfold row; rw [hl]⟩
    | text s => obtain ⟨v, hv⟩ := h0; exact ⟨_, by unfold row; rw [hv, hl]⟩
    | elem => obtain ⟨v, hv⟩ := h0; exact ⟨_, by unfold row; rw [hv, hl]⟩
    | other => exact absurd h0 id

theorem rows_spec (np : Np V) (dts : List Str) : ∀ (l : List Node) a, rows np dts l = .ok a →
    a.length = (trs l).length ∧
    ∀ (i : Nat) (cs : List Cell), (trs l)[i]? = some cs → ∃ ra, a[i]? = some ra ∧ row np dts cs = .ok ra
  | [], a, h => by simp only [rows, Except.ok.injEq] at h; subst h; simp [trs]
  | .blank :: r, a, h => rows_spec np dts r a h
  | .other :: _, a, h => by simp [rows] at h
  | .tr cs :: r, a, h => by
    unfold rows at h
    cases hc : row np dts cs with
    | error x => rw [hc] at h; simp at h
    | ok v =>
      rw [hc] at h
      cases hr : rows np dts r with
      | error x => rw [hr] at h; simp at h
      | ok m =>
        rw [hr] at h; simp only [Except.ok.injEq] at h; subst h
        have ih := rows_spec np dts r m hr
        have e : trs (.tr cs :: r) = cs :: trs r := rfl
        rw [e]
        refine ⟨by simp [ih.1], fun i c hi => ?_⟩
        cases i with
        | zero =>
          simp only [List.getElem?_cons_zero, Option.some.injEq] at hi; subst hi
          exact ⟨v, rfl, hc⟩
        | succ i => simpa using ih.2 i c (by simpa using hi)

theorem rows_succeed (np : Np V) (dts : List Str) : ∀ (l : List Node), (∀ n ∈ l, n ≠ .other) →
    (∀ c ∈ trs l, ∃ a, row np dts c = .ok a) → ∃ a, rows np dts l = .ok a
  | [], _, _ => ⟨_, rfl⟩
  | .blank :: r, h, hc => rows_succeed np dts r (fun n hn => h n (by simp [hn])) hc
  | .other :: _, h, _ => absurd rfl (h .other (by simp))
  | .tr cs :: r, h, hc => by
    obtain ⟨v, hv⟩ := hc cs (by simp [trs])
    obtain ⟨m, hm⟩ := rows_succeed np dts r (fun n hn => h n (by simp [hn]))
      (fun c hcm => hc c (by
        have e : trs (.tr cs :: r) = cs :: trs r := rfl
        rw [e]; exact List.mem_cons_of_mem _ hcm))
    exact ⟨_, by unfold rows; rw [hv, hm]⟩

/-! ## The pieces of a table -/

theorem run_append (np : Np V) : ∀ (a b : List Ev) (s : St V),
    run np s (a ++ b) = match run np s a with
      | .error x => .error x
      | .ok s' => run np s' b
  | [], b, s => rfl
  | e :: a, b, s => by
    have e1 : ∀ c, run np s (e :: c) = match step np s e with
        | .error x => Except.error x
        | .ok s' => run np s' c := fun c => rfl
    rw [List.cons_append, e1, e1]
    cases h : step np s e with
    | error x => rfl
    | ok s' => exact run_append np a b s'

theorem run_append_ok (np : Np V) {a b : List Ev} {s s' : St V} (h : run np s a = .ok s') :
    run np s (a ++ b) = run np s' b := by rw [run_append, h]

theorem run_cons_ok (np : Np V) {e : Ev} {b : List Ev} {s s' : St V} (h : step np s e = .ok s') :
    run np s (e :: b) = run np s' b := by
  show (match step np s e with
    | Except.error x => Except.error x
    | Except.ok s' => run np s' b) = _
  rw [h]

def addDescs (k : Str) : List TItem → List (Str × Str) → List (Str × Str)
  | [], d => d
  | .desc t :: r, d => addDescs k r (dset k t d)
  | .field _ :: r, d => addDescs k r d
  | .param _ :: r, d => addDescs k r d
  | .other :: r, d => addDescs k r d

theorem truthy_ne {k : Str} (h : k ≠ []) : truthy (some k) = true := by
  cases k with
  | nil => exact absurd rfl h
  | cons => rfl

theorem run_items (np : Np V) (R k : Str) (hR : R ≠ []) (hk : k ≠ []) : ∀ (l : List TItem) (s : St V)
    (fs : List Info), s.inres = some R → s.intab = some k → s.fields = some fs →
    (∀ e, TItem.field e ∈ l → ∃ f, extractField e = .ok f) →
    (∀ e, TItem.param e ∈ l → ∃ f, extractParam np.accepts e = .ok f) →
    run np s (l.map evI) = .ok { s with tabp := s.tabp ++ tpars np l, fields := some (fs ++ tfields l),
                                        tabdescs := addDescs k l s.tabdescs }
  | [], s, fs, h1, h2, h3, _, _ => by
    simp [run, tpars, tfields, addDescs, ← h3]
  | .field e :: r, s, fs, h1, h2, h3, hf, hp => by
    obtain ⟨f, he⟩ := hf e (by simp)
    have hs : step np s (.field e) = .ok { s with fields := some (fs ++ [f]) } := by
      simp [step, h2, truthy_ne hk, he, h3]
    show run np s (.field e :: r.map evI) = _
    rw [run_cons_ok np hs, run_items np R k hR hk r { s with fields := some (fs ++ [f]) } (fs ++ [f]) h1 h2 rfl
      (fun e he' => hf e (by simp [he'])) (fun e he' => hp e (by simp [he']))]
    have e1 : tpars np (.field e :: r) = tpars np r := rfl
    have e2 : tfields (.field e :: r) = f :: tfields r := by
      simp [tfields, he, Except.toOption]
    simp [e1, e2, addDescs]
  | .param e :: r, s, fs, h1, h2, h3, hf, hp => by
    obtain ⟨f, he⟩ := hp e (by simp)
    have hs : step np s (.param e) = .ok { s with tabp := s.tabp ++ [f] } := by
      simp [step, h1, h2, truthy_ne hk, truthy_ne hR, he]
    show run np s (.param e :: r.map evI) = _
    rw [run_cons_ok np hs, run_items np R k hR hk r { s with tabp := s.tabp ++ [f] } fs h1 h2 h3
      (fun e he' => hf e (by simp [he'])) (fun e he' => hp e (by simp [he']))]
    have e1 : tpars np (.param e :: r) = f :: tpars np r := by
      simp [tpars, he, Except.toOption]
    have e2 : tfields (.param e :: r) = tfields r := rfl
    simp [e1, e2, addDescs]
  | .desc t :: r, s, fs, h1, h2, h3, hf, hp => by
    have hs : step np s (.desc (some t)) = .ok { s with tabdescs := dset k t s.tabdescs } := by
      simp [step, h1, h2, truthy_ne hk, truthy_ne hR]
    show run np s (.desc (some t) :: r.map evI) = _
    rw [run_cons_ok np hs, run_items np R k hR hk r { s with tabdescs := dset k t s.tabdescs } fs h1 h2 h3
      (fun e he' => hf e (by simp [he'])) (fun e he' => hp e (by simp [he']))]
    rfl
  | .other :: r, s, fs, h1, h2, h3, hf, hp => by
    have hs : step np s .other = .ok s := rfl
    show run np s (.other :: r.map evI) = _
    rw [run_cons_ok np hs, run_items np R k hR hk r _ fs h1 h2 h3
      (fun e he' => hf e (by simp [he'])) (fun e he' => hp e (by simp [he']))]
    rfl

theorem asStr_ok {s : Str} (h : ∀ c ∈ s, c.val < 128) : asStr s = .ok s := by
  unfold asStr
  rw [if_pos]
  simpa using h

theorem allAscii_ok : ∀ {l : List Info}, (∀ f ∈ l, ∀ c ∈ f.name, c.val < 128) → allAscii l = .ok ()
  | [], _ => rfl
  | f :: r, h => by
    unfold allAscii
    rw [asStr_ok (h f (by simp))]
    exact allAscii_ok (fun g hg => h g (by simp [hg]))

theorem applyParams_ok : ∀ (l : List Info) d, (∀ f ∈ l, ∀ c ∈ f.name, c.val < 128) →
    applyParams l d = .ok (l.foldl (fun d p => dset p.name (p.body, p.extra) d) d)
  | [], _, _ => rfl
  | f :: r, d, h => by
    unfold applyParams
    rw [asStr_ok (h f (by simp))]
    exact applyParams_ok r _ (fun g hg => h g (by simp [hg]))

theorem dget_dset {α : Type} (k k' : Str) (v : α) : ∀ d : List (Str × α),
    dget k' (dset k v d) = if k = k' then some v else dget k' d
  | [] => by simp [dset, dget]
  | (a, w) :: r => by
    unfold dset
    by_cases ha : a = k
    · subst ha
      by_cases hk : a = k' <;> simp [dget, hk]
    · simp only [ha, if_false, dget]
      rw [dget_dset k k' v r]
      by_cases hk : k = k'
      · subst hk; simp [ha]
      · simp [hk]

theorem dget_fold (n : Str) : ∀ (l : List Info) (d : List (Str × (Str × List (Str × Str)))),
    dget n (l.foldl (fun d p => dset p.name (p.body, p.extra) d) d)
      = match lastPar n l with
        | some p => some (p.body, p.extra)
        | none => dget n d
  | [], d => rfl
  | p :: r, d => by
    show dget n (r.foldl _ (dset p.name (p.body, p.extra) d)) = _
    rw [dget_fold n r]
    by_cases hp : p.name = n
    · have e : lastPar n (p :: r) = match lastPar n r with | some q => some q | none => some p := by
        unfold lastPar
        rw [List.filter_cons_of_pos (by simpa using hp), List.getLast?_cons]
        cases (r.filter (fun p => decide (p.name = n))).getLast? <;> rfl
      rw [e]
      cases lastPar n r with
      | some q => rfl
      | none => simp [dget_dset, hp]
    · have e : lastPar n (p :: r) = lastPar n r := by
        unfold lastPar
        rw [List.filter_cons_of_neg (by simpa using hp)]
      rw [e]
      cases lastPar n r with
      | some q => rfl
      | none => simp [dget_dset, hp]

theorem dset_new {α : Type} (k : Str) (v : α) : ∀ d : List (Str × α), k ∉ d.map Prod.fst →
    dset k v d = d ++ [(k, v)]
  | [], _ => rfl
  | (a, w) :: r, h => by
    simp only [List.map_cons, List.mem_cons, not_or] at h
    unfold dset
    rw [if_neg (fun e => h.1 e.symm), dset_new k v r h.2]
    rfl

/-! ## Tables -/

/-- the table as stored, for a good one -/
def tabOf (np : Np V) (p : Placed) : Tab V :=
  ⟨some p.res, tfields p.t.items,
   (p.vo ++ p.rp ++ tpars np p.t.items).foldl (fun d q => dset q.name (q.body, q.extra) d) [],
   ((rows np ((tfields p.t.items).map Info.body) p.t.nodes).toOption).getD []⟩

theorem process_ok (np : Np V) (p : Placed) (g : GoodTable np p) :
    process np (tfields p.t.items) p.t.nrows p.t.nodes = .ok (tabOf np p).data := by
  obtain ⟨a, ha⟩ := rows_succeed np ((tfields p.t.items).map Info.body) p.t.nodes g.nodes
    (fun c hc => row_succeeds np _ c (by simpa using (g.cells c hc).1) (fun j x dt h1 h2 => by
      rw [List.getElem?_map] at h2
      cases hf : (tfields p.t.items)[j]? with
      | none => rw [hf] at h2; simp at h2
      | some f =>
        rw [hf] at h2; simp only [Option.map_some, Option.some.injEq] at h2; subst h2
        exact (g.cells c hc).2 j x f h1 hf))
  unfold process mkDtype
  rw [allAscii_ok (fun f hf => g.ascii f (by simp [hf]))]
  simp only
  rw [if_pos (List.all_eq_true.mpr g.types), if_pos g.nodup]
  simp only
  rw [if_neg (by rcases g.nrows with h | h <;> simp [h]), ha]
  simp [tabOf, ha, Except.toOption]

theorem tableName_ne (R : Str) (n : Option Str) (tc : Nat) (u : List Str) : tableName R n tc u ≠ [] := by
  unfold tableName
  cases n <;> simp only <;> split <;> simp

theorem run_table (np : Np V) (p : Placed) (hR : p.res ≠ []) (g : GoodTable np p) (s : St V)
    (h1 : s.inres = some p.res) (h2 : s.intab = none) (h3 : s.vo = p.vo) (h4 : s.resp = p.rp)
    (h5 : s.tc + 1 = p.num) (h6 : s.fields = none) (h7 : s.params = none) (h8 : s.arr = none) :
    run np s (evT p.t) = .ok { s with
        tc := p.num
        tabp := tpars np p.t.items
        nrows := p.t.nrows
        tabdescs := (addDescs (tableName p.res p.t.name p.num (s.tables.map Prod.fst)) p.t.items s.tabdescs)
        tables := (dset (tableName p.res p.t.name p.num (s.tables.map Prod.fst)) (tabOf np p) s.tables) } := by
  generalize hk : tableName p.res p.t.name p.num (s.tables.map Prod.fst) = k
  have hkn : k ≠ [] := hk ▸ tableName_ne _ _ _ _
  have st1 : step np s (.tabStart false p.t.name p.t.nrows) = .ok { s with
        tc := s.tc + 1
        tabp := []
        fields := some []
        nrows := p.t.nrows
        intab := some k } := by
    have e2 : truthy s.intab = false := by rw [h2]; rfl
    simp [step, e2, h1, h5, truthy_ne hR, hk]
  unfold evT
  rw [run_cons_ok np st1, run_append_ok np (run_items np p.res k hR hkn p.t.items { s with
        tc := s.tc + 1
        tabp := []
        fields := some []
        nrows := p.t.nrows
        intab := some k } [] h1 rfl rfl g.fields g.params)]
  rw [run_cons_ok np (s' := { s with
        tc := s.tc + 1
        tabp := tpars np p.t.items
        fields := some (tfields p.t.items)
        nrows := p.t.nrows
        intab := some k
        tabdescs := addDescs k p.t.items s.tabdescs
        params := some (p.vo ++ p.rp ++ tpars np p.t.items) })
      (by simp [step, truthy_ne hkn, h3, h4])]
  rw [run_cons_ok np (s' := { s with
        tc := s.tc + 1
        tabp := tpars np p.t.items
        fields := some (tfields p.t.items)
        nrows := p.t.nrows
        intab := some k
        tabdescs := addDescs k p.t.items s.tabdescs
        params := some (p.vo ++ p.rp ++ tpars np p.t.items)
        arr := some (tabOf np p).data })
      (by simp [step, process_ok np p g])]
  rw [run_cons_ok np (e := .other) rfl]
  have ap := applyParams_ok (p.vo ++ p.rp ++ tpars np p.t.items) [] (fun f hf => g.ascii f (by
    simp only [List.mem_append] at hf ⊢; tauto))
  rw [run_cons_ok np (s' := { s with
        tc := s.tc + 1
        tabp := tpars np p.t.items
        nrows := p.t.nrows
        tabdescs := addDescs k p.t.items s.tabdescs
        tables := dset k (tabOf np p) s.tables })
      (by
        simp only [step, ap]
        simp only [h1, h2, h6, h7, h8, tabOf])]
  unfold run
  rw [h5]

/-! ## Resources and documents -/

theorem keyed_name (R : Str) (n : Option Str) (p : Placed) (u : List Str) (h1 : p.res = R) (h2 : p.t.name = n) :
    tableName R n p.num u
      = if rawName p ∈ u then rawName p ++ ['_'] ++ Nat.toDigits 10 p.num else rawName p := by
  subst h1 h2
  unfold tableName rawName
  cases p.t.name <;> simp

def resDescs (R : Str) : List RItem → List (Str × Str) → List (Str × Str)
  | [], d => d
  | .desc t :: r, d => resDescs R r (dset R t d)
  | .param _ :: r, d => resDescs R r d
  | .table _ :: r, d => resDescs R r d
  | .other :: r, d => resDescs R r d

theorem keyed_append : ∀ (a b : List Placed) (u : List Str),
    keyed u (a ++ b) = keyed u a ++ keyed (u ++ (keyed u a).map Prod.fst) b
  | [], b, u => by simp [keyed]
  | p :: a, b, u => by
    simp only [List.cons_append, keyed]
    rw [keyed_append a b]
    simp

/-- the state between the items of a resource -/
structure InRes (s : St V) (R : Str) (vo rp : List Info) (rc n : Nat) : Prop where
  inres : s.inres = some R
  intab : s.intab = none
  vo : s.vo = vo
  resp : s.resp = rp
  rc : s.rc = rc
  tc : s.tc = n
  fields : s.fields = none
  params : s.params = none
  arr : s.arr = none

theorem run_res (np : Np V) (R : Str) (hR : R ≠ []) (vo : List Info) (rc : Nat) : ∀ (l : List RItem) (rp : List Info)
    (n : Nat) (s : St V), InRes s R vo rp rc n → (∀ i ∈ l, GoodR np i) →
    (∀ p ∈ placedR np R vo rp n l, GoodTable np p) →
    (s.tables.map Prod.fst ++ (keyed (s.tables.map Prod.fst) (placedR np R vo rp n l)).map Prod.fst).Nodup →
    ∃ s' rp', run np s (l.flatMap evR) = .ok s' ∧ InRes s' R vo rp' rc (n + ntab l) ∧
      s'.tables = s.tables ++ (keyed (s.tables.map Prod.fst) (placedR np R vo rp n l)).map
        (fun x => (x.1, tabOf np x.2))
  | [], rp, n, s, i, _, _, _ => ⟨s, rp, rfl, i, by simp [placedR, keyed]⟩
  | .param e :: r, rp, n, s, i, hg, hp, hn => by
    obtain ⟨f, he⟩ := hg (.param e) (by simp)
    have hs : step np s (.param e) = .ok { s with resp := s.resp ++ [f] } := by
      have e2 : truthy s.intab = false := by rw [i.intab]; rfl
      simp [step, he, i.inres, truthy_ne hR, e2]
    have e1 : (extractParam np.accepts e).toOption.toList = [f] := by rw [he]; rfl
    obtain ⟨s', rp', h1, h2, h3⟩ := run_res np R hR vo rc r (rp ++ [f]) n { s with resp := s.resp ++ [f] }
      ⟨i.inres, i.intab, i.vo, by simp [i.resp], i.rc, i.tc, i.fields, i.params, i.arr⟩
      (fun x hx => hg x (by simp [hx])) (by simpa [placedR, e1] using hp)
      (by simpa [placedR, e1] using hn)
    refine ⟨s', rp', ?_, h2, by simpa [placedR, e1] using h3⟩
    show run np s (.param e :: r.flatMap evR) = _
    rw [run_cons_ok np hs, h1]
  | .desc t :: r, rp, n, s, i, hg, hp, hn => by
    have hs : step np s (.desc (some t)) = .ok { s with resdescs := dset R t s.resdescs } := by
      have e2 : truthy s.intab = false := by rw [i.intab]; rfl
      simp [step, i.inres, truthy_ne hR, e2]
    obtain ⟨s', rp', h1, h2, h3⟩ := run_res np R hR vo rc r rp n { s with resdescs := dset R t s.resdescs }
      ⟨i.inres, i.intab, i.vo, i.resp, i.rc, i.tc, i.fields, i.params, i.arr⟩
      (fun x hx => hg x (by simp [hx])) hp hn
    refine ⟨s', rp', ?_, h2, h3⟩
    show run np s (.desc (some t) :: r.flatMap evR) = _
    rw [run_cons_ok np hs, h1]
  | .other :: r, rp, n, s, i, hg, hp, hn => by
    obtain ⟨s', rp', h1, h2, h3⟩ := run_res np R hR vo rc r rp n s i
      (fun x hx => hg x (by simp [hx])) hp hn
    exact ⟨s', rp', h1, h2, h3⟩
  | .table t :: r, rp, n, s, i, hg, hp, hn => by
    generalize hpd : (⟨R, vo, rp, n + 1, t⟩ : Placed) = p at *
    have epl : placedR np R vo rp n (.table t :: r) = p :: placedR np R vo rp (n + 1) r := by
      rw [← hpd]; rfl
    rw [epl] at hp hn
    rw [epl]
    have hres : p.res = R := by rw [← hpd]
    have hnum : p.num = n + 1 := by rw [← hpd]
    have ht : p.t = t := by rw [← hpd]
    have hr := run_table np p (by rw [hres]; exact hR) (hp p (by simp)) s (by rw [i.inres, hres]) i.intab
      (by rw [i.vo, ← hpd]) (by rw [i.resp, ← hpd]) (by rw [i.tc, hnum]) i.fields i.params i.arr
    have hk := keyed_name p.res p.t.name p (s.tables.map Prod.fst) rfl rfl
    generalize hkk : tableName p.res p.t.name p.num (s.tables.map Prod.fst) = k at hr hk
    have ek : keyed (s.tables.map Prod.fst) (p :: placedR np R vo rp (n + 1) r)
        = (k, p) :: keyed (s.tables.map Prod.fst ++ [k]) (placedR np R vo rp (n + 1) r) := by
      rw [hk]; rfl
    rw [ek] at hn ⊢
    have hnew : k ∉ s.tables.map Prod.fst := by
      intro hc
      simp only [List.map_cons] at hn
      exact (List.nodup_append.mp hn).2.2 k hc k (by simp) rfl
    have etab : dset k (tabOf np p) s.tables = s.tables ++ [(k, tabOf np p)] := dset_new _ _ _ hnew
    rw [etab] at hr
    have emap : (s.tables ++ [(k, tabOf np p)]).map Prod.fst = s.tables.map Prod.fst ++ [k] := by simp
    obtain ⟨s', rp', h1, h2, h3⟩ := run_res np R hR vo rc r rp (n + 1)
      { s with
        tc := p.num
        tabp := tpars np p.t.items
        nrows := p.t.nrows
        tabdescs := addDescs k p.t.items s.tabdescs
        tables := s.tables ++ [(k, tabOf np p)] }
      ⟨i.inres, i.intab, i.vo, i.resp, i.rc, hnum, i.fields, i.params, i.arr⟩
      (fun x hx => hg x (by simp [hx])) (fun q hq => hp q (by simp [hq]))
      (by rw [emap]; simpa using hn)
    refine ⟨s', rp', ?_, ?_, ?_⟩
    · show run np s (evT t ++ r.flatMap evR) = _
      rw [← ht, run_append_ok np hr, h1]
    · have : n + ntab (.table t :: r) = n + 1 + ntab r := by simp [ntab]; omega
      rw [this]; exact h2
    · rw [h3, emap]; simp

theorem resName_ne (nm : Option Str) (n : Nat) (h : nm ≠ some []) : resName nm n ≠ [] := by
  unfold resName
  cases nm with
  | none => simp
  | some x => simpa using h

/-- the state between resources -/
structure AtTop (s : St V) (vo : List Info) (rc n : Nat) : Prop where
  inres : s.inres = none
  intab : s.intab = none
  vo : s.vo = vo
  rc : s.rc = rc
  tc : s.tc = n
  fields : s.fields = none
  params : s.params = none
  arr : s.arr = none

theorem run_doc (np : Np V) : ∀ (l : List DItem) (vo : List Info) (rc n : Nat) (s : St V), AtTop s vo rc n →
    (∀ i ∈ l, GoodD np i) → (∀ p ∈ placedD np vo rc n l, GoodTable np p) →
    (s.tables.map Prod.fst ++ (keyed (s.tables.map Prod.fst) (placedD np vo rc n l)).map Prod.fst).Nodup →
    ∃ s', run np s (l.flatMap evD) = .ok s' ∧
      s'.tables = s.tables ++ (keyed (s.tables.map Prod.fst) (placedD np vo rc n l)).map
        (fun x => (x.1, tabOf np x.2))
  | [], vo, rc, n, s, i, _, _, _ => ⟨s, rfl, by simp [placedD, keyed]⟩
  | .param e :: r, vo, rc, n, s, i, hg, hp, hn => by
    obtain ⟨f, he⟩ := hg (.param e) (by simp)
    have hs : step np s (.param e) = .ok { s with vo := s.vo ++ [f] } := by
      have e2 : truthy s.intab = false := by rw [i.intab]; rfl
      have e3 : truthy s.inres = false := by rw [i.inres]; rfl
      simp [step, he, e2, e3]
    have e1 : (extractParam np.accepts e).toOption.toList = [f] := by rw [he]; rfl
    obtain ⟨s', h1, h3⟩ := run_doc np r (vo ++ [f]) rc n { s with vo := s.vo ++ [f] }
      ⟨i.inres, i.intab, by simp [i.vo], i.rc, i.tc, i.fields, i.params, i.arr⟩
      (fun x hx => hg x (by simp [hx])) (by simpa [placedD, e1] using hp)
      (by simpa [placedD, e1] using hn)
    refine ⟨s', ?_, by simpa [placedD, e1] using h3⟩
    show run np s (.param e :: r.flatMap evD) = _
    rw [run_cons_ok np hs, h1]
  | .desc t :: r, vo, rc, n, s, i, hg, hp, hn => by
    have hs : step np s (.desc (some t)) = .ok { s with description := t } := by
      have e3 : truthy s.inres = false := by rw [i.inres]; rfl
      simp [step, e3]
    obtain ⟨s', h1, h3⟩ := run_doc np r vo rc n { s with description := t }
      ⟨i.inres, i.intab, i.vo, i.rc, i.tc, i.fields, i.params, i.arr⟩
      (fun x hx => hg x (by simp [hx])) hp hn
    refine ⟨s', ?_, h3⟩
    show run np s (.desc (some t) :: r.flatMap evD) = _
    rw [run_cons_ok np hs, h1]
  | .other :: r, vo, rc, n, s, i, hg, hp, hn => by
    obtain ⟨s', h1, h3⟩ := run_doc np r vo rc n s i (fun x hx => hg x (by simp [hx])) hp hn
    exact ⟨s', h1, h3⟩
  | .res nm items :: r, vo, rc, n, s, i, hg, hp, hn => by
    have hgr := hg (.res nm items) (by simp)
    generalize hR : resName nm (rc + 1) = R at *
    have hRn : R ≠ [] := hR ▸ resName_ne _ _ hgr.1
    have epl : placedD np vo rc n (.res nm items :: r)
        = placedR np R vo [] n items ++ placedD np vo (rc + 1) (n + ntab items) r := by rw [← hR]; rfl
    rw [epl] at hp hn ⊢
    rw [keyed_append] at hn ⊢
    have hs : step np s (.resStart nm) = .ok { s with rc := s.rc + 1, resp := [], inres := some R } := by
      have e3 : truthy s.inres = false := by rw [i.inres]; rfl
      simp [step, e3, i.rc, ← hR, resName]
    have hn' := hn
    simp only [List.map_append] at hn
    rw [← List.append_assoc] at hn
    obtain ⟨s1, rp', h1, h2, h3⟩ := run_res np R hRn vo (rc + 1) items [] n
      { s with rc := s.rc + 1, resp := [], inres := some R }
      ⟨rfl, i.intab, i.vo, rfl, by simp [i.rc], i.tc, i.fields, i.params, i.arr⟩ hgr.2
      (fun p hq => hp p (by simp [hq])) (List.Nodup.of_append_left hn)
    have e4 : s1.tables.map Prod.fst = s.tables.map Prod.fst ++
        (keyed (s.tables.map Prod.fst) (placedR np R vo [] n items)).map Prod.fst := by
      rw [h3]; simp
    obtain ⟨s2, g1, g3⟩ := run_doc np r vo (rc + 1) (n + ntab items) { s1 with inres := none }
      ⟨rfl, h2.intab, h2.vo, h2.rc, h2.tc, h2.fields, h2.params, h2.arr⟩
      (fun x hx => hg x (by simp [hx])) (fun p hq => hp p (by simp [hq])) (by
        show (s1.tables.map Prod.fst ++ _).Nodup
        rw [e4]
        exact hn)
    refine ⟨s2, ?_, ?_⟩
    · show run np s (.resStart nm :: (items.flatMap evR ++ [.resEnd]) ++ r.flatMap evD) = _
      rw [List.cons_append, run_cons_ok np hs, List.append_assoc, run_append_ok np h1]
      show run np s1 (.resEnd :: r.flatMap evD) = _
      rw [run_cons_ok np (e := .resEnd) rfl, g1]
    · rw [g3]
      show s1.tables ++ (keyed (s1.tables.map Prod.fst) _).map _ = _
      rw [e4, h3]
      simp

/-! ## C129: what comes back -/

theorem keyed_fst_raw : ∀ (l : List Placed) (u : List Str), (u ++ l.map rawName).Nodup →
    keyed u l = l.map (fun p => (rawName p, p))
  | [], _, _ => rfl
  | p :: r, u, h => by
    have hn : rawName p ∉ u := fun hc => (List.nodup_append.mp h).2.2 _ hc _ (by simp) rfl
    have := keyed_fst_raw r (u ++ [rawName p]) (by simpa using h)
    simp only [keyed, if_neg hn, List.map_cons, this]

theorem dget_mem {α β : Type} (f : α → Str) (g : α → β) : ∀ (l : List α), (l.map f).Nodup → ∀ x ∈ l,
    dget (f x) (l.map (fun y => (f y, g y))) = some (g x)
  | [], _, x, hx => by simp at hx
  | y :: r, h, x, hx => by
    simp only [List.map_cons, List.nodup_cons] at h
    simp only [List.map_cons, dget]
    by_cases e : f y = f x
    · rw [if_pos e]
      rcases List.mem_cons.mp hx with rfl | hx
      · rfl
      · exact absurd (e ▸ List.mem_map_of_mem hx) h.1
    · rw [if_neg e]
      rcases List.mem_cons.mp hx with rfl | hx
      · exact absurd rfl e
      · exact dget_mem f g r h.2 x hx

/-- `keys` lists the table names, in any order (Python's dictionaries have none) -/
def IsKeys (s : St V) (keys : List Str) : Prop := keys.Perm (s.tables.map Prod.fst)

theorem dget_isSome {α : Type} (k : Str) : ∀ (d : List (Str × α)), k ∈ d.map Prod.fst → ∃ v, dget k d = some v
  | [], h => by simp at h
  | (a, v) :: r, h => by
    unfold dget
    by_cases e : a = k
    · exact ⟨v, if_pos e⟩
    · rw [if_neg e]
      refine dget_isSome k r ?_
      simp only [List.map_cons, List.mem_cons] at h
      exact h.resolve_left (fun h => e h.symm)

/-- **C129** Every table of a readable document comes back under its name, "resource:name" or "tab" and its number
(names given twice get the number added, see `keyed`), with the resource it stood in, its fields in order, each
parameter with the value of the table's own declaration if it has one, else the resource's, else the document's,
and every cell: the converted text where there is one, masked zero where the TD is empty.  No other tables. -/
theorem tables_come_back (np : Np V) (d : List DItem) (hd : ∀ i ∈ d, GoodD np i)
    (hp : ∀ p ∈ placed np d, GoodTable np p)
    (hn : ((keyed [] (placed np d)).map Prod.fst).Nodup) :
    ∃ s, read np (events d) = .ok s ∧
      ∀ keys, IsKeys s keys →
      keys.Perm ((keyed [] (placed np d)).map Prod.fst) ∧
      ∀ k p, (k, p) ∈ keyed [] (placed np d) →
        ∃ tab, getTable s keys (.inl k) = .ok tab ∧
          tab.res = some p.res ∧
          getFieldNames s keys (.inl k) = .ok ((tfields p.t.items).map Info.name) ∧
          (∀ n, dget n tab.pars = (lastPar n (p.vo ++ p.rp ++ tpars np p.t.items)).map
            (fun q => (q.body, q.extra))) ∧
          tab.data.length = (trs p.t.nodes).length ∧
          ∀ (i j : Nat) (cs : List Cell) (f : Info), (trs p.t.nodes)[i]? = some cs →
            (tfields p.t.items)[j]? = some f →
            ∃ ra r, tab.data[i]? = some ra ∧ ra[j]? = some r ∧ CellIs np f.body cs[j]? r := by
  obtain ⟨s, h1, h2⟩ := run_doc np d [] 0 0 {} ⟨rfl, rfl, rfl, rfl, rfl, rfl, rfl, rfl⟩ hd hp (by simpa [placed] using hn)
  have h2' : s.tables = (keyed [] (placed np d)).map (fun x => (x.1, tabOf np x.2)) := by simpa [placed] using h2
  have hk : s.tables.map Prod.fst = (keyed [] (placed np d)).map Prod.fst := by
    rw [h2', List.map_map]; rfl
  refine ⟨s, h1, fun keys hkeys => ⟨hk ▸ hkeys, fun k p hkp => ?_⟩⟩
  have g : GoodTable np p := by
    refine hp p ?_
    have : ∀ (l : List Placed) (u : List Str), (k, p) ∈ keyed u l → p ∈ l := by
      intro l
      induction l with
      | nil => intro u h; simp [keyed] at h
      | cons q r ih =>
        intro u h
        simp only [keyed, List.mem_cons, Prod.mk.injEq] at h
        rcases h with ⟨_, rfl⟩ | h
        · simp
        · exact List.mem_cons_of_mem _ (ih _ h)
    exact this _ _ hkp
  have hmem : k ∈ keys := (hkeys.mem_iff).mpr (hk ▸ List.mem_map_of_mem (f := Prod.fst) hkp)
  have hget : dget k s.tables = some (tabOf np p) := by
    rw [h2']
    exact dget_mem (α := Str × Placed) Prod.fst (fun x => tabOf np x.2) _ hn (k, p) hkp
  have hgt : getTable s keys (.inl k) = .ok (tabOf np p) := by
    unfold getTable tableToName
    simp only
    rw [if_pos hmem]
    simp only
    rw [hget]
  have hpr := process_ok np p g
  have hrows : rows np ((tfields p.t.items).map Info.body) p.t.nodes = .ok (tabOf np p).data := by
    unfold process at hpr
    cases hm : mkDtype (tfields p.t.items) with
    | error x => rw [hm] at hpr; simp at hpr
    | ok _ =>
      rw [hm] at hpr
      simp only at hpr
      rw [if_neg (by rcases g.nrows with h | h <;> simp [h])] at hpr
      exact hpr
  have hsp := rows_spec np _ _ _ hrows
  refine ⟨tabOf np p, hgt, rfl, ?_, fun n => ?_, hsp.1, fun i j cs f hi hj => ?_⟩
  · unfold getFieldNames
    rw [hgt]
    simp only
    rw [show (tabOf np p).fields = tfields p.t.items from rfl,
      allAscii_ok (fun f hf => g.ascii f (by simp [hf]))]
  · show dget n (List.foldl _ _ _) = _
    rw [dget_fold]
    cases lastPar n (p.vo ++ p.rp ++ tpars np p.t.items) <;> rfl
  · obtain ⟨ra, h3, h4⟩ := hsp.2 i cs hi
    obtain ⟨r, h5, h6⟩ := (row_cells np _ _ _ h4).2 j f.body (by simp [hj])
    exact ⟨ra, r, h3, h5, h6⟩

/-- with distinct names nothing is renamed -/
theorem distinct_names_kept (np : Np V) (d : List DItem) (h : ((placed np d).map rawName).Nodup) :
    keyed [] (placed np d) = (placed np d).map (fun p => (rawName p, p)) ∧
    ((keyed [] (placed np d)).map Prod.fst).Nodup := by
  have e := keyed_fst_raw (placed np d) [] (by simpa using h)
  exact ⟨e, by rw [e, List.map_map]; exact h⟩

/-- a table may be named by its number in the list of names; -1 is the last -/
theorem by_number (s : St V) (keys : List Str) (hk : IsKeys s keys) (i : Nat) (n : Str) (h : keys[i]? = some n) :
    getTable s keys (.inr i) = getTable s keys (.inl n) ∧
    getTable s keys (.inr ((i : Int) - keys.length)) = getTable s keys (.inl n) ∧
    ∃ t, getTable s keys (.inl n) = .ok t := by
  have hm : n ∈ keys := List.mem_of_getElem? h
  have hl : i < keys.length := by
    obtain ⟨h', _⟩ := List.getElem?_eq_some_iff.mp h; exact h'
  have e0 : tableToName keys (.inl n) = .ok n := by unfold tableToName; simp [hm]
  have e1 : tableToName keys (.inr i) = .ok n := by
    unfold tableToName
    simp only
    rw [if_neg (show ¬ ((i : Int) < 0) by omega), if_neg (show ¬ ((i : Int) < 0) by omega)]
    simp [h]
  have e2 : tableToName keys (.inr ((i : Int) - keys.length)) = .ok n := by
    unfold tableToName
    simp only
    rw [if_pos (show (i : Int) - keys.length < 0 by omega),
      show (i : Int) - keys.length + keys.length = i by omega, if_neg (show ¬ ((i : Int) < 0) by omega)]
    simp [h]
  obtain ⟨t, ht⟩ := dget_isSome n s.tables ((hk.mem_iff).mp hm)
  refine ⟨?_, ?_, t, ?_⟩
  · unfold getTable; rw [e0, e1]
  · unfold getTable; rw [e0, e2]
  · unfold getTable; rw [e0]; simp only; rw [ht]

/-- an unknown name raises KeyError, a number outside the list IndexError -/
theorem unknown_refused (s : St V) (keys : List Str) (n : Str) (i : Int) (h : n ∉ keys)
    (hi : i < -(keys.length : Int) ∨ (keys.length : Int) ≤ i) :
    getTable s keys (.inl n) = .error .key ∧ getTable s keys (.inr i) = .error .index := by
  constructor
  · unfold getTable tableToName; simp [h]
  · unfold getTable tableToName
    simp only
    rcases hi with hi | hi
    · rw [if_pos (show i < 0 by omega), if_pos (show i + keys.length < 0 by omega)]
    · rw [if_neg (show ¬ i < 0 by omega), if_neg (show ¬ i < 0 by omega),
        List.getElem?_eq_none (by omega)]

/-! ## C130: what is refused -/

theorem run_mem (np : Np V) (e : Ev) : ∀ (l : List Ev) (s s' : St V), run np s l = .ok s' → e ∈ l →
    ∃ s1 s2, step np s1 e = .ok s2
  | [], _, _, _, h => by simp at h
  | x :: r, s, s', hr, h => by
    unfold run at hr
    cases hs : step np s x with
    | error y => rw [hs] at hr; simp at hr
    | ok t =>
      rw [hs] at hr
      rcases List.mem_cons.mp h with rfl | h
      · exact ⟨s, t, hs⟩
      · exact run_mem np e r t s' hr h

theorem process_rows (np : Np V) (fs : List Info) (nr : Option Str) (l : List Node) a
    (h : process np fs nr l = .ok a) : rows np (fs.map Info.body) l = .ok a ∧ (nr = none ∨ nr = some []) ∧
      mkDtype fs = .ok () := by
  unfold process at h
  cases hm : mkDtype fs with
  | error x => rw [hm] at h; simp at h
  | ok u =>
    rw [hm] at h
    simp only at h
    by_cases hn : nr.getD [] = []
    · rw [if_neg (by simpa using hn)] at h
      refine ⟨h, ?_, by cases u; rfl⟩
      cases nr with
      | none => exact Or.inl rfl
      | some x => exact Or.inr (by simpa using hn)
    · rw [if_pos hn] at h; simp at h

theorem rows_tr (np : Np V) (dts : List Str) : ∀ (l : List Node) a, rows np dts l = .ok a →
    (∀ n ∈ l, n ≠ .other) ∧ ∀ c, Node.tr c ∈ l → ∃ b, row np dts c = .ok b
  | [], a, h => by simp
  | .blank :: r, a, h => by
    have := rows_tr np dts r a h
    exact ⟨by simpa using this.1, by simpa using this.2⟩
  | .other :: _, a, h => by simp [rows] at h
  | .tr cs :: r, a, h => by
    unfold rows at h
    cases hc : row np dts cs with
    | error x => rw [hc] at h; simp at h
    | ok v =>
      rw [hc] at h
      cases hr : rows np dts r with
      | error x => rw [hr] at h; simp at h
      | ok m =>
        have ih := rows_tr np dts r m hr
        refine ⟨by simpa using ih.1, fun c hcm => ?_⟩
        rcases List.mem_cons.mp hcm with h' | h'
        · cases h'; exact ⟨v, hc⟩
        · exact ih.2 c h'

/-- whatever the rest of the file: these make the constructor raise -/
theorem bad_content_refused (np : Np V) (evs : List Ev) (s : St V) (h : read np evs = .ok s) :
    .unsupported ∉ evs ∧ (∀ n r, .tabStart true n r ∉ evs) ∧ .desc none ∉ evs ∧
    ∀ l, .tabledata l ∈ evs → .other ∉ l ∧ ∀ c, .tr c ∈ l → .other ∉ c := by
  refine ⟨fun hm => ?_, fun n r hm => ?_, fun hm => ?_, fun l hm => ?_⟩
  · obtain ⟨_, _, hs⟩ := run_mem np _ _ _ _ h hm; simp [step] at hs
  · obtain ⟨s1, s2, hs⟩ := run_mem np _ _ _ _ h hm
    simp only [step] at hs
    split at hs
    · split at hs
      · simp at hs
      · simp at hs
    · simp at hs
  · obtain ⟨_, _, hs⟩ := run_mem np _ _ _ _ h hm; simp [step] at hs
  · obtain ⟨s1, s2, hs⟩ := run_mem np _ _ _ _ h hm
    simp only [step] at hs
    split at hs
    · rename_i fs _ _ _
      cases hp : process np fs s1.nrows l with
      | error x => rw [hp] at hs; simp at hs
      | ok a =>
        have h1 := rows_tr np _ _ _ (process_rows np _ _ _ _ hp).1
        refine ⟨fun hc => h1.1 _ hc rfl, fun c hc ho => ?_⟩
        obtain ⟨b, hb⟩ := h1.2 c hc
        exact (row_cells np _ _ _ hb).1 _ ho rfl
    · simp at hs

/-- in particular white space between the cells of a row, as in every indented file, is refused -/
theorem indented_rows_refused (np : Np V) (evs : List Ev) (l : List Node) (a b : List Cell)
    (h : .tabledata l ∈ evs) (ht : .tr (a ++ .other :: b) ∈ l) : ∃ x, read np evs = .error x := by
  cases hr : read np evs with
  | error x => exact ⟨x, rfl⟩
  | ok s => exact absurd (by simp) (((bad_content_refused np evs s hr).2.2.2 l h).2 _ ht)

/-- the nrows attribute stays in force until the next table -/
theorem nrows_kept (np : Np V) : ∀ (l : List Ev) (s s' : St V), run np s l = .ok s' →
    (∀ r n m, .tabStart r n m ∉ l) → s'.nrows = s.nrows
  | [], s, s', h, _ => by simp only [run, Except.ok.injEq] at h; rw [h]
  | e :: r, s, s', h, hm => by
    unfold run at h
    cases hs : step np s e with
    | error x => rw [hs] at h; simp at h
    | ok t =>
      rw [hs] at h
      rw [nrows_kept np r t s' h (fun a b c hc => hm a b c (by simp [hc]))]
      cases e with
      | tabStart a b c => exact absurd (by simp) (hm a b c)
      | resStart n => simp only [step] at hs; split at hs <;> simp at hs; rw [← hs]
      | resEnd => simp only [step, Except.ok.injEq] at hs; rw [← hs]
      | tabEnd =>
        simp only [step] at hs
        split at hs
        · split at hs <;> simp at hs; rw [← hs]
        · simp at hs
      | dataStart => simp only [step] at hs; split at hs <;> simp at hs; rw [← hs]
      | tabledata n =>
        simp only [step] at hs
        split at hs
        · split at hs <;> simp at hs; rw [← hs]
        · simp at hs
      | unsupported => simp [step] at hs
      | param e =>
        simp only [step] at hs
        split at hs
        · simp at hs
        · split at hs
          · simp at hs; rw [← hs]
          · split at hs <;> simp at hs <;> rw [← hs]
      | field e =>
        simp only [step] at hs
        split at hs
        · split at hs <;> simp at hs; rw [← hs]
        · simp at hs
      | desc t =>
        cases t with
        | none => simp [step] at hs
        | some t =>
          simp only [step] at hs
          split at hs
          · split at hs <;> simp at hs <;> rw [← hs]
          · simp at hs; rw [← hs]
      | other => simp only [step, Except.ok.injEq] at hs; rw [← hs]

/-- a table that declares its number of rows can never be read -/
theorem nrows_refused (np : Np V) (a b c : List Ev) (r : Bool) (nm : Option Str) (n : Str) (l : List Node)
    (hn : n ≠ []) (hb : ∀ r n m, .tabStart r n m ∉ b) :
    ∃ x, read np (a ++ .tabStart r nm (some n) :: (b ++ .tabledata l :: c)) = .error x := by
  unfold read
  rw [run_append]
  cases h1 : run np {} a with
  | error x => exact ⟨x, rfl⟩
  | ok s1 =>
    simp only
    unfold run
    cases h2 : step np s1 (.tabStart r nm (some n)) with
    | error x => exact ⟨x, rfl⟩
    | ok s2 =>
      simp only
      have e2 : s2.nrows = some n := by
        simp only [step] at h2
        split at h2
        · split at h2
          · simp at h2
          · split at h2 <;> simp at h2; rw [← h2]
        · simp at h2
      rw [run_append]
      cases h3 : run np s2 b with
      | error x => exact ⟨x, rfl⟩
      | ok s3 =>
        simp only
        have e3 : s3.nrows = some n := by rw [nrows_kept np b s2 s3 h3 hb, e2]
        unfold run
        cases h4 : step np s3 (.tabledata l) with
        | error x => exact ⟨x, rfl⟩
        | ok s4 =>
          exfalso
          simp only [step] at h4
          split at h4
          · split at h4
            · simp at h4
            · rename_i hp
              rcases (process_rows np _ _ _ _ hp).2.1 with h | h
              · rw [e3] at h; simp at h
              · rw [e3] at h; simp only [Option.some.injEq] at h; exact hn h
          · simp at h4

/-- bit columns are accepted as fields but their data never -/
theorem bit_refused (np : Np V) (e : Elem) (f : Info) (h : extractField e = .ok f)
    (ht : get? "datatype".toList e.attrs = some "bit".toList) (fs : List Info) (hf : f ∈ fs) (nr : Option Str)
    (l : List Node) : ∃ x, process np fs nr l = .error x := by
  cases hp : process np fs nr l with
  | error x => exact ⟨x, rfl⟩
  | ok a =>
    exfalso
    have hm := (process_rows np _ _ _ _ hp).2.2
    unfold mkDtype at hm
    split at hm
    · simp at hm
    · split at hm
      · rename_i hall
        have hb := List.all_eq_true.mp hall f hf
        have hbody : f.body = "None".toList := by
          unfold extractField at h
          split at h
          · simp at h
          · split at h
            · simp at h
            · rw [ht] at h
              simp only at h
              rw [show dtypemap "bit".toList = some none by decide] at h
              simp only at h
              cases hz : get? "arraysize".toList e.attrs with
              | none => rw [hz] at h; simp only [sized, Except.ok.injEq] at h; rw [← h]
              | some z => rw [hz] at h; simp [sized] at h
        rw [hbody] at hb
        exact absurd hb (by decide)
      · simp at hm

/-- a table with no data, or with data outside DATA, is refused -/
theorem table_without_data_refused (np : Np V) (s : St V) (h : s.params = none ∨ s.arr = none) :
    step np s .tabEnd = .error .unbound := by
  rcases h with h | h
  · simp [step, h]
  · simp [step, h]

/-- a row with too many cells is refused, one with too few leaves cells that were never written but count as
present (see `CellIs` for `none`) -/
theorem row_length (np : Np V) (dts : List Str) (cs : List Cell) l (h : row np dts cs = .ok l) :
    cs.length ≤ dts.length ∧ ∀ j, cs.length ≤ j → j < dts.length → l[j]? = some (none, true) := by
  refine ⟨(row_len np dts cs l h).2, fun j h1 h2 => ?_⟩
  obtain ⟨r, h3, h4⟩ := (row_cells np dts cs l h).2 j dts[j] (List.getElem?_eq_getElem h2)
  rw [h3, h4.2.2.2 (List.getElem?_eq_none h1)]

/-- the parameters of a table cannot be had: the getter returns nothing -/
theorem params_never_returned (s : St V) (keys : List Str) (t : Str ⊕ Int) d :
    getTableParams s keys t ≠ .ok (some d) := by
  unfold getTableParams
  split <;> simp

/-! ## Fields and parameters -/

/-- VOTable types and the numpy types of the same meaning (size in bytes) -/
def typeTable : List (String × String) :=
  [("unsignedByte", "u1"), ("short", "i2"), ("int", "i4"), ("long", "i8"), ("float", "f4"), ("double", "f8"),
   ("floatComplex", "c8"), ("doubleComplex", "c16")]

theorem get?_none (k : Str) : ∀ l : List (Str × Str), k ∉ l.map Prod.fst → get? k l = none
  | [], _ => rfl
  | (a, v) :: r, h => by
    simp only [List.map_cons, List.mem_cons, not_or] at h
    rw [show get? k ((a, v) :: r) = if a = k then some v else get? k r from rfl, if_neg (fun e => h.1 e.symm)]
    exact get?_none k r h.2

theorem get?_foldl (k : Str) : ∀ (l : List (Str × Str)), (l.map Prod.fst).Nodup → ∀ acc : List (Str × Str),
    dget k (l.foldl (fun d a => dset a.1 a.2 d) acc) = (get? k l).or (dget k acc)
  | [], _, acc => rfl
  | (a, v) :: r, h, acc => by
    simp only [List.map_cons, List.nodup_cons] at h
    have ih := get?_foldl k r h.2 (dset a v acc)
    show dget k (r.foldl _ (dset a v acc)) = _
    rw [ih, dget_dset, show get? k ((a, v) :: r) = if a = k then some v else get? k r from rfl]
    by_cases e : a = k
    · rw [if_pos e, if_pos e, get?_none k r (e ▸ h.1)]; rfl
    · rw [if_neg e, if_neg e]

theorem get?_filter (k : Str) (p : Str → Bool) (hp : p k = true) : ∀ l : List (Str × Str),
    get? k (l.filter (fun a => p a.1)) = get? k l
  | [] => rfl
  | (a, v) :: r => by
    by_cases ha : p a = true
    · rw [List.filter_cons_of_pos (by simpa using ha)]
      unfold get?
      rw [get?_filter k p hp r]
    · rw [List.filter_cons_of_neg (by simpa using ha), get?_filter k p hp r]
      have : a ≠ k := fun e => ha (e ▸ hp)
      rw [show get? k ((a, v) :: r) = if a = k then some v else get? k r from rfl, if_neg this]

/-- the extras are the remaining attributes and the description -/
theorem extras_spec (d : Str) (attrs : List (Str × Str)) (h : (attrs.map Prod.fst).Nodup) (k : Str)
    (hk : k ≠ "DESCRIPTION".toList) (h1 : k ≠ "name".toList) (h2 : k ≠ "arraysize".toList) (h3 : k ≠ "datatype".toList) :
    dget k (extras d attrs) = get? k attrs := by
  unfold extras
  rw [get?_foldl k _ (h.sublist ((List.filter_sublist).map _)) _]
  rw [show dget k [("DESCRIPTION".toList, d)] = if "DESCRIPTION".toList = k then some d else none from rfl,
    if_neg (fun e => hk e.symm), Option.or_none]
  exact get?_filter k (fun a => decide (a ≠ "name".toList ∧ a ≠ "arraysize".toList ∧ a ≠ "datatype".toList))
    (decide_eq_true ⟨h1, h2, h3⟩) attrs

theorem extras_drop (d : Str) (attrs : List (Str × Str)) (k : Str)
    (hk : k = "name".toList ∨ k = "arraysize".toList ∨ k = "datatype".toList) : dget k (extras d attrs) = none := by
  unfold extras
  have : ∀ (l acc : List (Str × Str)), (∀ a ∈ l, a.1 ≠ k) → dget k acc = none →
      dget k (l.foldl (fun d a => dset a.1 a.2 d) acc) = none := by
    intro l
    induction l with
    | nil => intro acc _ h; exact h
    | cons a r ih =>
      intro acc hl h
      exact ih _ (fun b hb => hl b (by simp [hb])) (by rw [dget_dset, if_neg (hl a (by simp))]; exact h)
  refine this _ _ ?_ ?_
  · intro a ha
    have hf := of_decide_eq_true (List.mem_filter.1 ha).2
    rcases hk with rfl | rfl | rfl
    · exact hf.1
    · exact hf.2.1
    · exact hf.2.2
  · rcases hk with rfl | rfl | rfl <;> rfl

/-- **C129** A numeric field is a column of the numpy type of the same meaning, a text field of the declared length (also
if declared as at most that long); name, description and other attributes are kept. -/
theorem field_extracted (e : Elem) (nm d : Str) (hn : get? "name".toList e.attrs = some nm)
    (hd : e.descs = [some d]) (hu : (e.attrs.map Prod.fst).Nodup) :
    (∀ t ∈ typeTable, get? "datatype".toList e.attrs = some t.1.toList → get? "arraysize".toList e.attrs = none →
      ∃ f, extractField e = .ok f ∧ f.name = nm ∧ f.body = t.2.toList ∧ okCode f.body = true) ∧
    (∀ n : Str, n ≠ [] → (∀ c ∈ n, c.isDigit = true) → get? "datatype".toList e.attrs = some "char".toList →
      (get? "arraysize".toList e.attrs = some n ∨ get? "arraysize".toList e.attrs = some (n ++ ['*'])) →
      ∃ f, extractField e = .ok f ∧ f.name = nm ∧ f.body = 'a' :: n ∧ okCode f.body = true) ∧
    (∀ f, extractField e = .ok f → f.name = nm ∧
      (get? "DESCRIPTION".toList e.attrs = none → dget "DESCRIPTION".toList f.extra = some d) ∧
      ∀ k, k ≠ "DESCRIPTION".toList → dget k f.extra =
        if k = "name".toList ∨ k = "arraysize".toList ∨ k = "datatype".toList then none else get? k e.attrs) := by
  have hdesc : descOf e.descs = .ok d := by rw [hd]; rfl
  refine ⟨fun t ht h1 h2 => ?_, fun n hne hdig h1 h2 => ?_, fun f hf => ?_⟩
  · refine ⟨⟨nm, t.2.toList, extras d e.attrs⟩, ?_, rfl, rfl, ?_⟩
    · unfold extractField
      rw [hn, hdesc, h1, h2]
      simp only
      have : dtypemap t.1.toList = some (some t.2.toList) := by
        simp only [typeTable, List.mem_cons, List.not_mem_nil, or_false] at ht
        rcases ht with rfl | rfl | rfl | rfl | rfl | rfl | rfl | rfl <;> decide
      rw [this]
      rfl
    · show okCode t.2.toList = true
      simp only [typeTable, List.mem_cons, List.not_mem_nil, or_false] at ht
      rcases ht with rfl | rfl | rfl | rfl | rfl | rfl | rfl | rfl <;> decide
  · have hns : ∀ c ∈ n, isSpace c = false ∧ c ≠ '*' ∧ c ≠ 'x' := by
      intro c hc
      have := hdig c hc
      refine ⟨?_, ?_, ?_⟩
      · unfold isSpace
        simp only [Bool.or_eq_false_iff, beq_eq_false_iff_ne]
        refine ⟨⟨⟨?_, ?_⟩, ?_⟩, ?_⟩ <;> (rintro rfl; revert this; decide)
      · rintro rfl; revert this; decide
      · rintro rfl; revert this; decide
    have dw : ∀ l : Str, (∀ c ∈ l, isSpace c = false) → l.dropWhile isSpace = l := by
      intro l hl
      cases l with
      | nil => rfl
      | cons c r => rw [List.dropWhile_cons_of_neg (by simp [hl c (by simp)])]
    have hstrip : ∀ l : Str, (∀ c ∈ l, isSpace c = false) → strip l = l := by
      intro l hl
      unfold strip
      rw [dw l hl, dw l.reverse (fun c hc => hl c (List.mem_reverse.1 hc)), List.reverse_reverse]
    have hfil : n.filter (fun ch => decide (ch ≠ '*')) = n :=
      List.filter_eq_self.2 (fun c hc => by simpa using (hns c hc).2.1)
    have hx : 'x' ∉ n := fun h => (hns 'x' h).2.2 rfl
    refine ⟨⟨nm, 'a' :: n, extras d e.attrs⟩, ?_, rfl, rfl, ?_⟩
    · unfold extractField
      rw [hn, hdesc, h1]
      simp only
      rw [show dtypemap "char".toList = some (some ['a']) by decide]
      simp only
      rcases h2 with h2 | h2
      · rw [h2]
        simp only [sized]
        rw [if_pos (Or.inl trivial), hstrip n (fun c hc => (hns c hc).1), if_neg hx, if_neg, hfil]
        · rfl
        · rintro rfl; exact (hns '*' (by simp)).2.1 rfl
      · rw [h2]
        simp only [sized]
        rw [if_pos (Or.inl trivial), hstrip (n ++ ['*']) (by
          intro c hc
          rcases List.mem_append.1 hc with hc | hc
          · exact (hns c hc).1
          · rw [List.mem_singleton.1 hc]; decide), if_neg (by simp [hx]), if_neg (by simpa using hne)]
        simpa [hfil] using fun c hc => (hns c hc).2.1
    · show n.all Char.isDigit = true
      exact List.all_eq_true.2 hdig
  · have hb : ∃ b, f = ⟨nm, b, extras d e.attrs⟩ := by
      unfold extractField at hf
      rw [hn, hdesc] at hf
      simp only at hf
      split at hf
      · cases hf
      · split at hf
        · cases hf
        · split at hf
          · cases hf
          · cases hf; exact ⟨_, rfl⟩
    obtain ⟨b, rfl⟩ := hb
    refine ⟨rfl, fun hno => ?_, fun k hk => ?_⟩
    · show dget _ (extras d e.attrs) = _
      unfold extras
      have : ∀ (l acc : List (Str × Str)), (∀ a ∈ l, a.1 ≠ "DESCRIPTION".toList) → dget "DESCRIPTION".toList acc = some d →
          dget "DESCRIPTION".toList (l.foldl (fun d a => dset a.1 a.2 d) acc) = some d := by
        intro l
        induction l with
        | nil => intro acc _ h; exact h
        | cons a r ih =>
          intro acc hl h
          exact ih _ (fun b hb => hl b (by simp [hb])) (by rw [dget_dset, if_neg (hl a (by simp))]; exact h)
      refine this _ _ ?_ rfl
      intro a ha e'
      have ha' : a ∈ e.attrs := (List.mem_filter.1 ha).1
      have : ∀ l : List (Str × Str), a ∈ l → ∃ v, get? a.1 l = some v := by
        intro l
        induction l with
        | nil => intro h; simp at h
        | cons b r ih =>
          intro h
          unfold get?
          by_cases eb : b.1 = a.1
          · exact ⟨b.2, by simp [eb]⟩
          · rcases List.mem_cons.1 h with rfl | h
            · exact absurd rfl eb
            · obtain ⟨v, hv⟩ := ih h
              exact ⟨v, by simp [eb, hv]⟩
      obtain ⟨v, hv⟩ := this _ ha'
      rw [e', hno] at hv
      cases hv
    · show dget k (extras d e.attrs) = _
      split
      · next h => exact extras_drop d e.attrs k h
      · next h =>
        simp only [not_or] at h
        exact extras_spec d e.attrs hu k hk h.1 h.2.1 h.2.2

/-- **C129** a parameter's value is the text of its value attribute, whatever its type -/
theorem param_extracted (acc : Option Str → Str → Bool) (e : Elem) (p : Info) (h : extractParam acc e = .ok p) :
    get? "name".toList e.attrs = some p.name ∧ get? "value".toList e.attrs = some p.body := by
  unfold extractParam at h
  split at h
  · cases h
  · next nm hnm =>
    split at h
    · cases h
    · split at h
      · cases h
      · split at h
        · cases h
        · split at h
          · cases h
          · next v hv =>
            split at h
            · cases h; exact ⟨hnm, hv⟩
            · cases h

/-- several descriptions in one field or parameter are refused -/
theorem several_descriptions_refused (acc : Option Str → Str → Bool) (e : Elem) (a b : Option Str) (r : List (Option Str))
    (h : e.descs = a :: b :: r) : (∀ f, extractField e ≠ .ok f) ∧ ∀ f, extractParam acc e ≠ .ok f := by
  have hd : descOf e.descs = .error .runtime := by rw [h]; cases a <;> rfl
  constructor
  · intro f hf
    unfold extractField at hf
    rw [hd] at hf
    split at hf <;> cases hf
  · intro f hf
    unfold extractParam at hf
    rw [hd] at hf
    split at hf <;> cases hf

/-- two columns of the same name are refused -/
theorem equal_columns_refused (np : Np V) (fs : List Info) (nr : Option Str) (l : List Node)
    (h : ¬ (fs.map Info.name).Nodup) (a) : process np fs nr l ≠ .ok a := by
  intro hp
  have hm := (process_rows np _ _ _ _ hp).2.2
  unfold mkDtype at hm
  split at hm
  · cases hm
  · split at hm
    · cases hm
    · cases hm

example : ∃ f, extractField ⟨[("name".toList, "c".toList), ("datatype".toList, "char".toList), ("arraysize".toList, "12*".toList),
    ("unit".toList, "m".toList)], [some "d".toList]⟩ = .ok f ∧ f.body = "a12".toList ∧ dget "unit".toList f.extra = some ['m'] :=
  ⟨_, rfl, rfl, rfl⟩

/-! ## Instances and the clash of names -/

/-- a numpy whose columns hold their texts -/
def npText : Np Str := ⟨fun _ t => match t with | some s => .ok s | none => .error .type, fun _ => ['0'],
  fun _ _ => true⟩

def exField (n t : String) : Elem := ⟨[("name".toList, n.toList), ("datatype".toList, t.toList)], []⟩
def exPar (n v : String) : Elem :=
  ⟨[("name".toList, n.toList), ("datatype".toList, "int".toList), ("value".toList, v.toList)], []⟩

def exT : Table := ⟨some "t".toList, none,
  [.desc "d".toList, .field (exField "a" "int"), .field (exField "b" "double"), .param (exPar "p" "3")],
  [.blank, .tr [.text "7".toList, .empty], .blank, .tr [.text "8".toList, .text "9".toList]]⟩

def exInfo (n v : String) : Info := ⟨n.toList, v.toList, [("DESCRIPTION".toList, []), ("value".toList, v.toList)]⟩

def exDoc : List DItem :=
  [.param (exPar "p" "1"), .other,
   .res (some "r".toList) [.param (exPar "q" "2"), .table exT],
   .res none [.table ⟨none, none, [.field (exField "a" "int")], []⟩]]

example : read npText (events exDoc) = .ok (match read npText (events exDoc) with | .ok s => s | .error _ => {}) ∧
    (match read npText (events exDoc) with
      | .ok s => s.tables.map (fun t => (t.1, t.2.data))
      | .error _ => []) =
    [("r:t".toList, [[(some ['7'], true), (some ['0'], false)], [(some ['8'], true), (some ['9'], true)]]),
     ("tab2".toList, [])] := by
  have h : ∃ s, read npText (events exDoc) = .ok s := ⟨_, rfl⟩
  obtain ⟨s, hs⟩ := h
  constructor
  · rw [hs]
  · rfl

/-- the hypotheses of `tables_come_back` hold for it -/
example : (∀ i ∈ exDoc, GoodD npText i) ∧ ((placed npText exDoc).map rawName).Nodup ∧
    (placed npText exDoc).length = 2 := by
  refine ⟨?_, by decide +kernel, rfl⟩
  intro i hi
  simp only [exDoc, List.mem_cons, List.not_mem_nil, or_false] at hi
  rcases hi with rfl | rfl | rfl | rfl
  · exact ⟨_, rfl⟩
  · trivial
  · refine ⟨by decide, fun j hj => ?_⟩
    simp only [List.mem_cons, List.not_mem_nil, or_false] at hj
    rcases hj with rfl | rfl
    · exact ⟨_, rfl⟩
    · trivial
  · refine ⟨by decide, fun j hj => ?_⟩
    simp only [List.mem_cons, List.not_mem_nil, or_false] at hj
    subst hj
    trivial

/-- ... and its tables are good -/
example : ∀ p ∈ placed npText exDoc, GoodTable npText p := by
  have hc : ∀ (dt : Str) (c : Cell), c = .empty ∨ (∃ t, c = .text t) → CellOk npText dt c := by
    rintro dt c (rfl | ⟨t, rfl⟩)
    · trivial
    · exact ⟨t, rfl⟩
  intro p hp
  have e : placed npText exDoc = [⟨"r".toList, [exInfo "p" "1"], [exInfo "q" "2"], 1, exT⟩,
      ⟨"res2".toList, [exInfo "p" "1"], [], 2, ⟨none, none, [.field (exField "a" "int")], []⟩⟩] := rfl
  rw [e] at hp
  simp only [List.mem_cons, List.not_mem_nil, or_false] at hp
  rcases hp with rfl | rfl
  · refine ⟨?_, ?_, Or.inl rfl, by decide +kernel, by decide +kernel, by decide +kernel, by decide +kernel, ?_⟩
    · intro e he
      simp only [exT, List.mem_cons, List.not_mem_nil, or_false, TItem.field.injEq, reduceCtorEq, false_or] at he
      rcases he with rfl | rfl
      · exact ⟨_, rfl⟩
      · exact ⟨_, rfl⟩
    · intro e he
      simp only [exT, List.mem_cons, List.not_mem_nil, or_false, TItem.param.injEq, reduceCtorEq, false_or] at he
      subst he
      exact ⟨_, rfl⟩
    · intro c hcm
      have e : c = [.text "7".toList, .empty] ∨ c = [.text "8".toList, .text "9".toList] := by
        simpa [trs, exT] using hcm
      have hcc : c.length ≤ 2 ∧ ∀ x ∈ c, x = .empty ∨ (∃ t, x = .text t) := by
        rcases e with rfl | rfl <;> simp
      exact ⟨hcc.1, fun j x f h1 _ => hc _ _ (hcc.2 x (List.mem_of_getElem? h1))⟩
  · refine ⟨?_, ?_, Or.inl rfl, by decide +kernel, by decide +kernel, by decide +kernel, by decide +kernel, ?_⟩
    · intro e he
      simp only [List.mem_cons, List.not_mem_nil, or_false, TItem.field.injEq] at he
      subst he
      exact ⟨_, rfl⟩
    · intro e he
      simp at he
    · intro c hcm
      simp [trs] at hcm

/-- three tables of one resource, named "t_3", "t" and "t" -/
def clashDoc : List DItem :=
  [.res (some "r".toList)
    [.table ⟨some "t_3".toList, none, [.field (exField "a" "int")], [.tr [.text "1".toList]]⟩,
     .table ⟨some "t".toList, none, [.field (exField "a" "int")], [.tr [.text "2".toList]]⟩,
     .table ⟨some "t".toList, none, [.field (exField "a" "int")], [.tr [.text "3".toList]]⟩]]

/-- the number added to the third name makes it the first's, whose table is lost -/
theorem renaming_loses_a_table : ∃ s, read npText (events clashDoc) = .ok s ∧
    s.tables.map (fun t => (t.1, t.2.data)) =
      [("r:t_3".toList, [[(some ['3'], true)]]), ("r:t".toList, [[(some ['2'], true)]])] :=
  ⟨_, rfl, rfl⟩

end Verif.VOTable

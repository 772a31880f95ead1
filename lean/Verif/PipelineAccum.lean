import Verif.PipelineStage
import Verif.PipelineProps

/-!
# Accumulate messages (C10): model of `AccumulateMessage`/`_Accumulator`

astropysics/pipeline.py:611-657 (`_Accumulator`) and 662-700 (`AccumulateMessage`).
-/

namespace Verif.Pipeline

open Verif

variable {S D M : Type}

/-- An installed `_Accumulator` (astropysics/pipeline.py:617-632): `naccum`, whether `setattrname` is
given, and `accum`. -/
structure Acc (D : Type) where
  naccum : Nat
  toAttr : Bool
  got : List D
deriving DecidableEq, Repr

/-- State of an element that can receive accumulate messages: its own state, the attribute accumulators
may set (one attribute name is modelled), the stack of installed accumulators (each remembers the
methods it replaced, astropysics/pipeline.py:624-625), and whether `elem.accumulator` exists. -/
structure AccSt (S D : Type) where
  base : S
  attr : Option D
  accs : List (Acc D)
  flag : Bool
deriving DecidableEq, Repr

/-- Messages: those of the element itself, or an `AccumulateMessage`
(astropysics/pipeline.py:662-700). -/
inductive AccMsg (M : Type)
  | own (m : M)
  | accumulate (naccum : Nat) (toAttr : Bool)
deriving DecidableEq, Repr

/-- The element seen by its own methods. -/
def baseElem (e : Elem (AccSt S D)) : Elem S := { id := e.id, cls := e.cls, st := e.st.base }

/-- `_Accumulator.plProcess` when one is installed, else the real `plProcess`
(astropysics/pipeline.py:634-637). -/
def accProcess (B : Beh S D M) (e : Elem (AccSt S D)) (d : D) : AccSt S D × List D × Out D :=
  match e.st.accs with
  | [] =>
    let (s, r, o) := B.process (baseElem e) d
    ({ e.st with base := s }, r, o)
  | a :: rest =>
    if a.got.length < a.naccum then ({ e.st with accs := { a with got := a.got ++ [d] } :: rest }, [], .none)
    else (e.st, [], .raise)

/-- `_Accumulator.finish` (astropysics/pipeline.py:645-657): `filt` is `filterfunc` (`none` when it
raises); afterwards the former methods are put back and `elem.accumulator` is deleted, which raises when
it is not there. -/
def accFinish (filt : List D → Option D) (st : AccSt S D) (a : Acc D) (rest : List (Acc D)) :
    AccSt S D × List D × Out D :=
  match filt a.got with
  | none => ({ st with accs := rest, flag := false }, [], .raise)
  | some x =>
    let st' := if a.toAttr then { st with attr := some x } else st
    ({ st' with accs := rest, flag := false }, if a.toAttr then [] else [x], if st.flag then .none else .raise)

/-- `_Accumulator.plInteract` when one is installed, else the real `plInteract`
(astropysics/pipeline.py:639-643). -/
def accInteract (B : Beh S D M) (filt : List D → Option D) (e : Elem (AccSt S D)) (d : D) :
    AccSt S D × List D × Out D :=
  match e.st.accs with
  | [] =>
    let (s, r, o) := B.interact (baseElem e) d
    ({ e.st with base := s }, r, o)
  | a :: rest =>
    if a.got.length = a.naccum then accFinish filt e.st a rest
    else (e.st, [], .none)

/-- `deliverMessage` (astropysics/pipeline.py:699-700 for `AccumulateMessage`). -/
def accDeliver (B : Beh S D M) (m : AccMsg M) (e : Elem (AccSt S D)) : AccSt S D × Bool :=
  match m with
  | .own m =>
    let (s, ok) := B.deliver m (baseElem e)
    ({ e.st with base := s }, ok)
  | .accumulate n t => ({ e.st with accs := ⟨n, t, []⟩ :: e.st.accs, flag := true }, true)

/-- Elements of behaviour `B` in a pipeline that also carries accumulate messages. -/
def accBeh (B : Beh S D M) (filt : List D → Option D) : Beh (AccSt S D) D (AccMsg M) where
  accepts e d := B.accepts (baseElem e) d
  process := accProcess B
  interact := accInteract B filt
  deliver := accDeliver B

/-- `n` successive calls `processStage(k)`, with their outcomes. -/
def stageTimes (B : Beh S D M) (k : Nat) : Nat → Pipe S D M → Pipe S D M × List (Except Exc StageRet)
  | 0, p => (p, [])
  | n + 1, p =>
    let (p1, r) := processStage B p k
    let (p2, rs) := stageTimes B k n p1
    (p2, r :: rs)

theorem stageTimes_succ {B : Beh S D M} {k n : Nat} {p p1 p2 : Pipe S D M} {r rs}
    (h1 : processStage B p k = (p1, r)) (h2 : stageTimes B k n p1 = (p2, rs)) :
    stageTimes B k (n + 1) p = (p2, r :: rs) := by
  simp only [stageTimes, h1, h2]

/-- The element while it accumulates. -/
def collecting (e : Elem (AccSt S D)) (n : Nat) (t : Bool) (got : List D) : Elem (AccSt S D) :=
  { e with st := { e.st with accs := [⟨n, t, got⟩], flag := true } }

theorem collect_loop (B : Beh S D M) (filt : List D → Option D) (k n : Nat) (t : Bool) (e : Elem (AccSt S D))
    (hacs : e.st.accs = []) (hacc : ∀ d, B.accepts (baseElem e) d = true) (x : D) (qs0 : List (List (Item D (AccMsg M))))
    (rest : List (Item D (AccMsg M))) :
    ∀ (ds : List D) (got : List D) (es : List (Elem (AccSt S D))) (cs : List Nat), ds ≠ [] →
      k < qs0.length → got.length + ds.length = n → filt (got ++ ds) = some x → es[k]? = some (collecting e n t got) →
      stageTimes (accBeh B filt) k ds.length
        ⟨es, cs, qs0.modify k (fun _ => rest ++ ds.reverse.map .data)⟩
      = (⟨es.modify k (fun _ => { e with st := { e.st with attr := if t then some x else e.st.attr, flag := false } }),
          cs.modify k (· + ds.length), qs0.modify k (fun _ => rest ++ if t then [] else [.data x])⟩,
        List.replicate ds.length (.ok .incomplete)) := by
  intro ds
  induction ds with
  | nil => intro _ _ _ h; exact absurd rfl h
  | cons d ds ih =>
    intro got es cs _ hk hn hf he
    have hq : (qs0.modify k (fun _ => rest ++ (d :: ds).reverse.map .data))[k]?
        = some ((rest ++ ds.reverse.map .data) ++ [.data d]) := by
      simp [hk]
    have hps := processStage_data (accBeh B filt) ⟨es, cs, qs0.modify k (fun _ => rest ++ (d :: ds).reverse.map .data)⟩
      k (collecting e n t got) d _ he hq (by simpa [accBeh, baseElem, collecting] using hacc d)
    have hlt : got.length < n := by simp at hn; omega
    have hpr : accProcess B (collecting e n t got) d
        = ((collecting e n t (got ++ [d])).st, [], .none) := by
      simp [accProcess, collecting, hlt]
    have hself : ({ collecting e n t got with st := (collecting e n t (got ++ [d])).st } : Elem (AccSt S D))
        = collecting e n t (got ++ [d]) := rfl
    cases ds with
    | nil =>
      have hlen : got.length + 1 = n := by simpa using hn
      have hin : accInteract B filt (collecting e n t (got ++ [d])) d
          = ({ e.st with attr := if t then some x else e.st.attr, flag := false }, if t then [] else [x], .none) := by
        have hf' : filt (got ++ [d]) = some x := hf
        cases t <;> simp [accInteract, collecting, hlen, accFinish, hf', hacs]
      have hat : attempt (accBeh B filt) (collecting e n t got) d
          = ({ e.st with attr := if t then some x else e.st.attr, flag := false }, if t then [] else [x], .none) := by
        simp only [attempt, accBeh, hpr, hself, hin, List.nil_append]
      rw [hat] at hps
      have hel : es.modify k (fun e' => { e' with st := { e.st with attr := if t then some x else e.st.attr, flag := false } })
          = es.modify k (fun _ => { e with st := { e.st with attr := if t then some x else e.st.attr, flag := false } }) := by
        apply List.ext_getElem?
        intro j
        simp only [List.getElem?_modify]
        split
        · rename_i hj; subst hj; rw [he]; rfl
        · rfl
      simp only [List.length_cons, List.length_nil, stageTimes, hps, hel, modify_modify, List.replicate]
      cases t <;> simp [Function.comp_def]
    | cons d' ds' =>
      have hlen : got.length + 1 ≠ n := by simp at hn; omega
      have hin : accInteract B filt (collecting e n t (got ++ [d])) d
          = ((collecting e n t (got ++ [d])).st, [], .none) := by
        simp [accInteract, collecting, hlen]
      have hat : attempt (accBeh B filt) (collecting e n t got) d
          = ((collecting e n t (got ++ [d])).st, [], .none) := by
        simp only [attempt, accBeh, hpr, hself, hin, List.nil_append]
      rw [hat] at hps
      have hel : (es.modify k (fun e' => { e' with st := (collecting e n t (got ++ [d])).st }))[k]?
          = some (collecting e n t (got ++ [d])) := by
        rw [Py.getElem?_mod_eq, he]; rfl
      have := ih (got ++ [d]) _ (cs.modify k (· + 1)) (by simp) hk (by simp at hn ⊢; omega)
        (by simpa using hf) hel
      simp only [List.map_nil, List.append_nil, modify_modify, Function.comp_def] at this hps
      have h3 := stageTimes_succ hps this
      rw [show (d :: d' :: ds').length = (d' :: ds').length + 1 from rfl, h3]
      simp [List.replicate_succ, Nat.add_comm, Nat.add_left_comm, Nat.add_assoc]

/-- **C10**: An accumulate message for element `e` with `naccum = n ≥ 1`, followed by `n` data `ds`
(first in, first handled) and then anything (`rest`), at a stage that is not accumulating yet.  Running the
stage `n+1` times delivers the message and withholds exactly the `n` data, in order: nothing comes out, and
then either their collection (`filterfunc(ds)`) is the next input of the stage, or it is in the attribute;
what was queued behind and in all other stages is unchanged, and the element is otherwise in exactly the
state it was in before the message. -/
theorem accumulate_collects (B : Beh S D M) (filt : List D → Option D) (p : Pipe (AccSt S D) D (AccMsg M))
    (k n : Nat) (t : Bool) (e : Elem (AccSt S D)) (ds : List D) (x : D) (np : Nat)
    (rest : List (Item D (AccMsg M)))
    (he : p.elems[k]? = some e) (hidle : e.st.accs = [] ∧ e.st.flag = false)
    (hacc : ∀ d, B.accepts (baseElem e) d = true)
    (hn : ds.length = n) (hpos : 0 < n) (hx : filt ds = some x)
    (hq : p.queues[k]? = some (rest ++ ds.reverse.map .data ++ [.msg ⟨.obj e.id, np, .accumulate n t⟩])) :
    ∃ p', stageTimes (accBeh B filt) k (n + 1) p
        = (p', .ok (.message true false) :: List.replicate n (.ok .incomplete)) ∧
      p'.queues = p.queues.modify k (fun _ => rest ++ if t then [] else [.data x]) ∧
      p'.elems = p.elems.modify k (fun e => { e with st := { e.st with attr := if t then some x else e.st.attr } }) ∧
      p'.cycles = p.cycles.modify k (· + n) := by
  have hkq : k < p.queues.length := (List.getElem?_eq_some_iff.mp hq).1
  have h0 := processStage_msg (accBeh B filt) p k e _ _ he hq
  have h1 : stageMsg (accBeh B filt) { p with queues := p.queues.modify k (fun _ => rest ++ ds.reverse.map .data) }
      k e ⟨.obj e.id, np, .accumulate n t⟩
      = (⟨p.elems.modify k (fun e' => { e' with st := (collecting e n t []).st }), p.cycles,
          p.queues.modify k (fun _ => rest ++ ds.reverse.map .data)⟩, .ok (.message true false)) := by
    simp [stageMsg, isTarget, accBeh, accDeliver, setSt, collecting, hidle]
  rw [h1] at h0
  have hel : (p.elems.modify k (fun e' => { e' with st := (collecting e n t []).st }))[k]?
      = some (collecting e n t []) := by
    rw [Py.getElem?_mod_eq, he]; rfl
  have h2 := collect_loop B filt k n t e hidle.1 hacc x p.queues rest ds [] _ p.cycles
    (by rintro rfl; simp at hn; omega) hkq (by simpa using hn) (by simpa using hx) hel
  rw [hn] at h2
  refine ⟨_, stageTimes_succ h0 h2, rfl, ?_, rfl⟩
  simp only [modify_modify]
  apply List.ext_getElem?
  intro j
  simp only [List.getElem?_modify]
  split
  · rename_i hj; subst hj; rw [he]
    obtain ⟨ei, ec, ⟨eb, ea, es, ef⟩⟩ := e
    simp only at hidle
    obtain ⟨rfl, rfl⟩ := hidle
    rfl
  · rfl

/-- An accumulator collecting sums, on the demo element, with a datum waiting behind: the three data 1, 2, 3
are withheld and their sum becomes the next input. -/
example : (stageTimes (accBeh quickBeh (fun l => some l.sum)) 0 4
    ⟨[⟨5, 0, ⟨(), none, [], false⟩⟩], [0],
      [[.data 9, .data 3, .data 2, .data 1, .msg ⟨.obj 5, 0, .accumulate 3 false⟩], []]⟩).1
    = ⟨[⟨5, 0, ⟨(), none, [], false⟩⟩], [3], [[.data 9, .data 6], []]⟩ := by decide

/-- With `filterfunc` absent or not, `naccum=0` blocks the element for good: every later datum raises. -/
theorem accumulate_zero_blocks (B : Beh S D M) (filt : List D → Option D) (t : Bool) (rest : List (Acc D))
    (e : Elem (AccSt S D)) (h : e.st.accs = ⟨0, t, []⟩ :: rest) (d : D) :
    (attempt (accBeh B filt) e d) = (e.st, [], .raise) := by
  simp [attempt, accBeh, accProcess, h]

/-- Counter-example to a smooth use of `setattrname` with `process(repeat=True)`: after the accumulation the
retry counter of the stage is still nonzero, so `process` pops an empty queue and raises IndexError,
although every datum was handled. -/
theorem accumulate_to_attribute_process_raises :
    (process (accBeh quickBeh (fun l => some l.sum)) 99
      ⟨[⟨5, 0, ⟨(), none, [], false⟩⟩], [0],
        [[.data 2, .data 1, .msg ⟨.obj 5, 0, .accumulate 2 true⟩], []]⟩ .on).2 = .error .indexError := by
  decide

/-- Two accumulate messages delivered before the first has finished: the second one to finish raises (its
`elem.accumulator` is already gone). -/
theorem accumulate_second_nested_raises :
    (stageTimes (accBeh quickBeh (fun l => some l.sum)) 0 4
      ⟨[⟨5, 0, ⟨(), none, [], false⟩⟩], [0],
        [[.data 2, .data 1, .msg ⟨.obj 5, 0, .accumulate 1 true⟩, .msg ⟨.obj 5, 0, .accumulate 1 true⟩], []]⟩).2
    = [.ok (.message true false), .ok (.message true false), .ok .incomplete, .error .elem] := by
  decide

end Verif.Pipeline

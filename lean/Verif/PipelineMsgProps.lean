import Verif.PipelineStage
import Verif.PipelineProps

/-!
# Property theorems for pipeline messages (C06, C10)
-/

namespace Verif.Pipeline

open Verif

variable {S D M : Type}

/-! ## C06: specification -/

/-- Does the target designate the element? -/
def Target.hits : Target → Elem S → Bool
  | .cls c, e => e.cls == c
  | .obj i, e => e.id == i

/-- Apply `f` to the first element satisfying `c`. -/
def updateFirst {α : Type} (c : α → Bool) (f : α → α) : List α → List α
  | [] => []
  | x :: xs => if c x then f x :: xs else x :: updateFirst c f xs

/-- The elements after a message with payload `m` and target `t` has been delivered to exactly the
designated elements: all of the class, or the (first occurrence of the) object. -/
def deliveredTo (B : Beh S D M) (m : M) (t : Target) (es : List (Elem S)) : List (Elem S) :=
  match t with
  | .cls c => es.map (fun e => if e.cls = c then { e with st := (B.deliver m e).1 } else e)
  | .obj i => updateFirst (fun e => e.id == i) (fun e => { e with st := (B.deliver m e).1 }) es

theorem modify_mid {α : Type} (pre post : List α) (x : α) (f : α → α) :
    (pre ++ x :: post).modify pre.length f = pre ++ f x :: post := by
  induction pre with
  | nil => rfl
  | cons a l ih => simp [ih]

theorem stageOnce_off_empty (B : Beh S D M) (fuel : Nat) (p : Pipe S D M) (k : Nat)
    (h : p.queues[k]? = some []) : stageOnce B .off fuel p k = (p, .ok [.incomplete]) := by
  simp [stageOnce, h]

theorem stagesLoop_off_empty (B : Beh S D M) (fuel : Nat) (p : Pipe S D M) :
    ∀ (sts : List Nat) acc, (∀ k ∈ sts, p.queues[k]? = some []) →
      ∃ r, stagesLoop B .off fuel p sts acc = (p, .ok r) := by
  intro sts
  induction sts with
  | nil => intro acc _; exact ⟨acc, rfl⟩
  | cons k sts ih =>
    intro acc h
    simp only [stagesLoop, stageOnce_off_empty B fuel p k (h k (by simp))]
    exact ih _ (fun k hk => h k (by simp [hk]))

/-- A message travelling alone from stage `pre.length` on. -/
theorem msg_travels (B : Beh S D M) (hB : ∀ m e, (B.deliver m e).2 = true) (fuel : Nat) :
    ∀ (post pre : List (Elem S)) (m : Msg M) (cyc : List Nat) (acc), post ≠ [] →
      ∃ r, stagesLoop B .off fuel ⟨pre ++ post, cyc,
          List.replicate pre.length [] ++ [.msg m] :: List.replicate post.length []⟩
          (List.range' pre.length post.length) acc
        = (⟨pre ++ deliveredTo B m.payload m.target post, cyc,
            List.replicate (pre.length + post.length + 1) []⟩, r) ∧
        ((∃ x, r = .ok x) ∧ (m.nprocessed ≠ 0 ∨ ∃ e ∈ post, m.target.hits e = true) ∨
         r = .error .pipelineError ∧ m.nprocessed = 0 ∧ ∀ e ∈ post, m.target.hits e = false) := by
  intro post
  induction post with
  | nil => intro pre m cyc acc h; simp at h
  | cons e post ih =>
    intro pre m cyc acc _
    have hq : (List.replicate pre.length ([] : List (Item D M)) ++
        [.msg m] :: List.replicate (e :: post).length [])[pre.length]? = some ([] ++ [.msg m]) := by
      rw [List.getElem?_append_right (by simp)]; simp
    have he : (pre ++ e :: post)[pre.length]? = some e := by
      rw [List.getElem?_append_right (by simp)]; simp
    have hmod0 : (List.replicate pre.length ([] : List (Item D M)) ++
        [Item.msg m] :: List.replicate (e :: post).length []).modify pre.length (fun _ => [])
        = List.replicate (pre.length + (e :: post).length + 1) [] := by
      have := modify_mid (List.replicate pre.length ([] : List (Item D M)))
        (List.replicate (e :: post).length []) [.msg m] (fun _ => [])
      simp only [List.length_replicate] at this
      rw [this, ← List.replicate_succ, List.replicate_append_replicate]
      congr 1
    have hps := processStage_msg B ⟨pre ++ e :: post, cyc, List.replicate pre.length [] ++
        [.msg m] :: List.replicate (e :: post).length []⟩ pre.length e m [] he hq
    simp only [hmod0] at hps
    have hso : ∀ p' r, processStage B ⟨pre ++ e :: post, cyc, List.replicate pre.length [] ++
        [.msg m] :: List.replicate (e :: post).length []⟩ pre.length = (p', .ok r) →
        stageOnce B .off fuel ⟨pre ++ e :: post, cyc, List.replicate pre.length [] ++
        [.msg m] :: List.replicate (e :: post).length []⟩ pre.length = (p', .ok [r]) := by
      intro p' r h
      simp only [stageOnce, hq, h]; simp
    have hso' : ∀ p' x, processStage B ⟨pre ++ e :: post, cyc, List.replicate pre.length [] ++
        [.msg m] :: List.replicate (e :: post).length []⟩ pre.length = (p', .error x) →
        stageOnce B .off fuel ⟨pre ++ e :: post, cyc, List.replicate pre.length [] ++
        [.msg m] :: List.replicate (e :: post).length []⟩ pre.length = (p', .error x) := by
      intro p' r h
      simp only [stageOnce, hq, h]; simp
    -- what passing on does
    have hrest : ∀ (e' : Elem S) (m' : Msg M), post ≠ [] → m'.target = m.target → m'.payload = m.payload →
        ∀ acc', ∃ r, stagesLoop B .off fuel
          (enqueue ⟨pre ++ e' :: post, cyc, List.replicate (pre.length + (e :: post).length + 1) []⟩
            ((pre.length : Int) + 1) (.msg m')) (List.range' (pre.length + 1) post.length) acc'
          = (⟨pre ++ e' :: deliveredTo B m.payload m.target post, cyc,
            List.replicate (pre.length + (e :: post).length + 1) []⟩, r) ∧
          ((∃ x, r = .ok x) ∧ (m'.nprocessed ≠ 0 ∨ ∃ e ∈ post, m.target.hits e = true) ∨
            r = .error .pipelineError ∧ m'.nprocessed = 0 ∧ ∀ e ∈ post, m.target.hits e = false) := by
      intro e' m' hpost ht hp acc'
      obtain ⟨r, h1, h2⟩ := ih (pre ++ [e']) m' cyc acc' hpost
      refine ⟨r, ?_, by rw [ht] at h2; exact h2⟩
      rw [ht, hp] at h1
      have hmq : (List.replicate (pre.length + (e :: post).length + 1) ([] : List (Item D M))).modify
          (pre.length + 1) (Py.appendleft (.msg m')) =
          List.replicate (pre ++ [e']).length [] ++ [.msg m'] :: List.replicate post.length [] := by
        have e1 : List.replicate (pre.length + (e :: post).length + 1) ([] : List (Item D M)) =
            List.replicate (pre.length + 1) [] ++ [] :: List.replicate post.length [] := by
          rw [← List.replicate_succ, List.replicate_append_replicate]; congr 1; simp; omega
        have := modify_mid (List.replicate (pre.length + 1) ([] : List (Item D M)))
          (List.replicate post.length []) [] (Py.appendleft (.msg m'))
        simp only [List.length_replicate] at this
        rw [e1, this]
        simp [Py.appendleft]
      simp only [enqueue, Py.update_succ, hmq]
      have e2 : (pre ++ [e']) ++ post = pre ++ e' :: post := by simp
      have e3 : (pre ++ [e']).length = pre.length + 1 := by simp
      rw [e2] at h1
      rw [e3] at h1 ⊢
      rw [h1]
      simp only [List.append_assoc, List.singleton_append]
      congr 3
      simp; omega
    have hlen : ∀ e' : Elem S, ((pre.length : Int) = ((pre ++ e' :: post).length : Int) - 1) ↔ post = [] := by
      intro e'
      simp only [List.length_append, List.length_cons]
      constructor
      · intro h; apply List.length_eq_zero_iff.mp; omega
      · rintro rfl; simp
    have hset : ∀ s, setSt (⟨pre ++ e :: post, cyc,
        List.replicate (pre.length + (e :: post).length + 1) []⟩ : Pipe S D M) pre.length s =
        ⟨pre ++ { e with st := s } :: post, cyc,
          List.replicate (pre.length + (e :: post).length + 1) []⟩ := by
      intro s; simp only [setSt, Py.update_nat, modify_mid]
    have hrange : List.range' pre.length (e :: post).length
        = pre.length :: List.range' (pre.length + 1) post.length := by
      simp [List.range'_succ]
    rw [hrange]
    have hnil : ∀ l : List (Elem S), l = [] → deliveredTo B m.payload m.target l = [] := by
      rintro _ rfl; unfold deliveredTo; split <;> simp [updateFirst]
    cases ht : isTarget m e with
    | no =>
      have hhit : m.target.hits e = false := by
        unfold isTarget at ht; unfold Target.hits
        split at ht <;> split at ht <;> simp_all
      have hdel : deliveredTo B m.payload m.target (e :: post) = e :: deliveredTo B m.payload m.target post := by
        cases htt : m.target with
        | cls c => rw [htt] at hhit; simp [Target.hits] at hhit; simp [deliveredTo, hhit]
        | obj i => rw [htt] at hhit; simp [Target.hits] at hhit; simp [deliveredTo, updateFirst, hhit]
      rw [hdel]
      by_cases hpost : post = []
      · subst hpost
        by_cases hn : m.nprocessed = 0
        · have : stageMsg B ⟨pre ++ [e], cyc, List.replicate (pre.length + [e].length + 1) []⟩ pre.length e m
              = (⟨pre ++ [e], cyc, List.replicate (pre.length + [e].length + 1) []⟩, .error .pipelineError) := by
            simp only [stageMsg, ht, (hlen e).mpr rfl, if_true, hn]
          rw [this] at hps
          refine ⟨.error .pipelineError, ?_, Or.inr ⟨rfl, hn, by simpa using hhit⟩⟩
          simp only [stagesLoop, hso' _ _ hps]
          rw [hnil [] rfl]
        · have : stageMsg B ⟨pre ++ [e], cyc, List.replicate (pre.length + [e].length + 1) []⟩ pre.length e m
              = (⟨pre ++ [e], cyc, List.replicate (pre.length + [e].length + 1) []⟩, .ok (.message false true)) := by
            simp only [stageMsg, ht, hn]
            simp [(hlen e)]
          rw [this] at hps
          refine ⟨.ok (acc ++ [[.message false true]]), ?_, Or.inl ⟨⟨_, rfl⟩, Or.inl hn⟩⟩
          simp only [stagesLoop, hso _ _ hps, hnil [] rfl]
          simp [stagesLoop]
      · have : stageMsg B ⟨pre ++ e :: post, cyc, List.replicate (pre.length + (e :: post).length + 1) []⟩ pre.length e m
            = (enqueue ⟨pre ++ e :: post, cyc, List.replicate (pre.length + (e :: post).length + 1) []⟩
                ((pre.length : Int) + 1) (.msg m), .ok (.message false true)) := by
          simp only [stageMsg, ht]
          rw [if_neg (by rw [hlen]; exact hpost)]
        rw [this] at hps
        simp only [stagesLoop, hso _ _ hps]
        obtain ⟨r, h1, h2⟩ := hrest e m hpost rfl rfl (acc ++ [[.message false true]])
        refine ⟨r, h1, ?_⟩
        rcases h2 with ⟨h2, h3⟩ | ⟨h2, h3, h4⟩
        · refine Or.inl ⟨h2, ?_⟩
          rcases h3 with h3 | ⟨e', h3, h4⟩
          · exact Or.inl h3
          · exact Or.inr ⟨e', by simp [h3], h4⟩
        · exact Or.inr ⟨h2, h3, by simpa [hhit] using h4⟩
    | yes =>
      obtain ⟨i, hti⟩ : ∃ i, m.target = .obj i := by
        unfold isTarget at ht
        split at ht
        · split at ht <;> simp at ht
        · exact ⟨_, by assumption⟩
      have hid : e.id = i := by
        unfold isTarget at ht; rw [hti] at ht; simp at ht; exact ht
      have hstage : stageMsg B ⟨pre ++ e :: post, cyc, List.replicate (pre.length + (e :: post).length + 1) []⟩ pre.length e m
          = (⟨pre ++ { e with st := (B.deliver m.payload e).1 } :: post, cyc,
              List.replicate (pre.length + (e :: post).length + 1) []⟩, .ok (.message true false)) := by
        simp only [stageMsg, ht, hset, hB m.payload e]; simp
      rw [hstage] at hps
      simp only [stagesLoop, hso _ _ hps]
      obtain ⟨r, hr⟩ := stagesLoop_off_empty B fuel
        (⟨pre ++ { e with st := (B.deliver m.payload e).1 } :: post, cyc,
          List.replicate (pre.length + (e :: post).length + 1) []⟩ : Pipe S D M)
        (List.range' (pre.length + 1) post.length) (acc ++ [[.message true false]]) (by
          intro k hk
          rw [List.mem_range'_1] at hk
          simp only [List.length_cons]
          rw [List.getElem?_replicate, if_pos (by omega)])
      refine ⟨.ok r, ?_, Or.inl ⟨⟨_, rfl⟩, Or.inr ⟨e, by simp, by simp [hti, Target.hits, hid]⟩⟩⟩
      rw [hr]
      simp [deliveredTo, hti, updateFirst, hid]
    | «continue» =>
      obtain ⟨c, htc⟩ : ∃ c, m.target = .cls c := by
        unfold isTarget at ht
        split at ht
        · exact ⟨_, by assumption⟩
        · split at ht <;> simp at ht
      have hcl : e.cls = c := by
        unfold isTarget at ht; rw [htc] at ht; simp at ht; exact ht
      have hdel : deliveredTo B m.payload m.target (e :: post)
          = { e with st := (B.deliver m.payload e).1 } :: deliveredTo B m.payload m.target post := by
        simp [deliveredTo, htc, hcl]
      rw [hdel]
      by_cases hpost : post = []
      · subst hpost
        have hstage : stageMsg B ⟨pre ++ [e], cyc, List.replicate (pre.length + [e].length + 1) []⟩ pre.length e m
            = (⟨pre ++ [{ e with st := (B.deliver m.payload e).1 }], cyc,
                List.replicate (pre.length + [e].length + 1) []⟩, .ok (.message true true)) := by
          simp only [stageMsg, ht, hset, hB m.payload e]
          simp
        rw [hstage] at hps
        refine ⟨.ok (acc ++ [[.message true true]]), ?_,
          Or.inl ⟨⟨_, rfl⟩, Or.inr ⟨e, by simp, by simp [htc, Target.hits, hcl]⟩⟩⟩
        simp only [stagesLoop, hso _ _ hps, hnil [] rfl]
        simp [stagesLoop]
      · have hstage : stageMsg B ⟨pre ++ e :: post, cyc, List.replicate (pre.length + (e :: post).length + 1) []⟩ pre.length e m
            = (enqueue ⟨pre ++ { e with st := (B.deliver m.payload e).1 } :: post, cyc,
                List.replicate (pre.length + (e :: post).length + 1) []⟩
                ((pre.length : Int) + 1) (.msg { m with nprocessed := m.nprocessed + 1 }),
                .ok (.message true true)) := by
          simp only [stageMsg, ht, hset, hB m.payload e, if_true]
          rw [if_neg (by rw [hlen]; exact hpost)]
        rw [hstage] at hps
        simp only [stagesLoop, hso _ _ hps]
        obtain ⟨r, h1, h2⟩ := hrest { e with st := (B.deliver m.payload e).1 }
          { m with nprocessed := m.nprocessed + 1 } hpost rfl rfl (acc ++ [[.message true true]])
        refine ⟨r, h1, ?_⟩
        rcases h2 with ⟨h2, _⟩ | ⟨h2, h3, _⟩
        · exact Or.inl ⟨h2, Or.inr ⟨e, by simp, by simp [htc, Target.hits, hcl]⟩⟩
        · simp at h3

/-- **C06.** A fresh message fed into an idle pipeline (at least one element) and processed: it is
delivered to exactly the designated elements (every element of the class; the first occurrence of the
object), the call raises PipelineError exactly when nobody was designated, and no data queue is affected
(all remain empty, the message is gone). -/
theorem message_reaches_exactly_its_targets (B : Beh S D M) (hB : ∀ m e, (B.deliver m e).2 = true)
    (fuel : Nat) (es : List (Elem S)) (hes : es ≠ []) (t : Target) (payload : M) :
    ∃ r, process B fuel (feed (mk es) (.msg ⟨t, 0, payload⟩)) .off
        = ({ (mk es : Pipe S D M) with elems := deliveredTo B payload t es }, r) ∧
      (r = .error .pipelineError ↔ ∀ e ∈ es, t.hits e = false) ∧
      ((∃ x, r = .ok x) ↔ ∃ e ∈ es, t.hits e = true) := by
  obtain ⟨r, h1, h2⟩ := msg_travels B hB fuel es [] ⟨t, 0, payload⟩ (es.map (fun _ => 0)) [] hes
  refine ⟨r, ?_, ?_, ?_⟩
  · have : feed (mk es) (.msg ⟨t, 0, payload⟩)
        = (⟨[] ++ es, es.map (fun _ => 0),
          List.replicate ([] : List (Elem S)).length [] ++ [.msg ⟨t, 0, payload⟩] :: List.replicate es.length []⟩ : Pipe S D M) := by
      simp [feed, mk, List.replicate_succ, Py.appendleft]
    rw [this]
    unfold process processToStage
    simp only [show ¬ (0 : Int) ≤ -1 by omega, if_false, List.length_nil, List.replicate_zero,
      List.nil_append, List.length_cons, List.length_replicate]
    rw [show ((es.length + 1 : Nat) : Int) + -1 = (es.length : Int) by omega, Int.toNat_natCast,
      List.range_eq_range']
    simp only [List.length_nil, List.replicate_zero, List.nil_append] at h1
    rw [h1]
    simp [mk]
  · rcases h2 with ⟨⟨x, rfl⟩, h2⟩ | ⟨rfl, _, h2⟩
    · simp at h2
      obtain ⟨e, he, h2⟩ := h2
      constructor
      · intro h; simp at h
      · intro h; rw [h e he] at h2; simp at h2
    · simpa using h2
  · rcases h2 with ⟨⟨x, rfl⟩, h2⟩ | ⟨rfl, _, h2⟩
    · simp at h2; simpa using h2
    · constructor
      · rintro ⟨x, h⟩; simp at h
      · rintro ⟨e, he, h⟩; rw [h2 e he] at h; simp at h

/-- An element kind whose messages add to its state. -/
def addBeh : Beh Nat Nat Nat where
  accepts _ _ := true
  process e d := (e.st, [], .value (d + e.st))
  interact e _ := (e.st, [], .none)
  deliver m e := (e.st + m, true)

example : (process addBeh 0 (feed (mk [⟨1, 7, 0⟩, ⟨2, 8, 0⟩, ⟨3, 7, 0⟩]) (.msg ⟨.cls 7, 0, 5⟩)) .off).1.elems
    = [⟨1, 7, 5⟩, ⟨2, 8, 0⟩, ⟨3, 7, 5⟩] := by decide
example : (process addBeh 0 (feed (mk [⟨1, 7, 0⟩, ⟨2, 8, 0⟩, ⟨2, 8, 0⟩]) (.msg ⟨.obj 2, 0, 5⟩)) .off).1.elems
    = [⟨1, 7, 0⟩, ⟨2, 8, 5⟩, ⟨2, 8, 0⟩] := by decide

/-- **C06**, order: a stage always handles the oldest waiting item, and a message that is passed on
joins the next stage's queue behind everything already there; nothing else moves. -/
theorem message_keeps_its_place (B : Beh S D M) (p : Pipe S D M) (k : Nat) (e : Elem S) (m : Msg M)
    (rest : List (Item D M)) (hs : p.queues.length = p.elems.length + 1)
    (he : p.elems[k]? = some e) (hw : waiting p k = .msg m :: rest) :
    waiting (processStage B p k).1 k = rest ∧
    (∀ j, j ≠ k → j ≠ k + 1 → waiting (processStage B p k).1 j = waiting p j) ∧
    (waiting (processStage B p k).1 (k + 1) = waiting p (k + 1) ∨
      (k + 1 < p.elems.length ∧ ∃ m' : Msg M, m'.target = m.target ∧ m'.payload = m.payload ∧
        waiting (processStage B p k).1 (k + 1) = waiting p (k + 1) ++ [.msg m'])) := by
  cases hq : p.queues[k]? with
  | none => simp [waiting, hq] at hw
  | some q =>
    have hqr : q = rest.reverse ++ [.msg m] := by
      simp only [waiting, hq, Option.getD_some] at hw
      rw [← List.reverse_reverse q, hw]; simp
    subst hqr
    have hkl : k < p.elems.length := (List.getElem?_eq_some_iff.mp he).1
    rw [processStage_msg B p k e m rest.reverse he hq]
    have hpass : ∀ (p1 : Pipe S D M) (m' : Msg M) (b : Bool), m'.target = m.target → m'.payload = m.payload →
        p1.queues = p.queues.modify k (fun _ => rest.reverse) → p1.elems.length = p.elems.length →
        let p' := (if (k : Int) = (p1.elems.length : Int) - 1 then
          if m'.nprocessed = 0 then (p1, Except.error Exc.pipelineError)
          else (p1, Except.ok (StageRet.message b true))
        else (enqueue p1 (k + 1) (.msg m'), Except.ok (StageRet.message b true))).1
        waiting p' k = rest ∧ (∀ j, j ≠ k → j ≠ k + 1 → waiting p' j = waiting p j) ∧
        (waiting p' (k + 1) = waiting p (k + 1) ∨
          (k + 1 < p.elems.length ∧ ∃ m' : Msg M, m'.target = m.target ∧ m'.payload = m.payload ∧
            waiting p' (k + 1) = waiting p (k + 1) ++ [.msg m'])) := by
      intro p1 m' b ht hp hq1 hl1
      have hsame : waiting p1 k = rest ∧ (∀ j, j ≠ k → waiting p1 j = waiting p j) := by
        constructor
        · simp [waiting, hq1, hq]
        · intro j hj; simp [waiting, hq1, Py.getElem?_mod_ne _ _ _ _ (Ne.symm hj)]
      dsimp only
      split
      · split <;> exact ⟨hsame.1, fun j h1 _ => hsame.2 j h1, Or.inl (hsame.2 _ (by omega))⟩
      · rename_i hne
        have hk1 : k + 1 < p.queues.length := by omega
        refine ⟨?_, ?_, Or.inr ⟨?_, m', ht, hp, ?_⟩⟩
        · simp only [enqueue, Py.update_succ, waiting]
          rw [Py.getElem?_mod_ne _ _ _ _ (by omega)]; exact hsame.1
        · intro j h1 h2
          simp only [enqueue, Py.update_succ, waiting]
          rw [Py.getElem?_mod_ne _ _ _ _ (Ne.symm h2)]; exact hsame.2 j h1
        · omega
        · simp only [enqueue, Py.update_succ, waiting, hq1]
          rw [Py.getElem?_mod_eq, Py.getElem?_mod_ne _ _ _ _ (by omega), List.getElem?_eq_getElem hk1]
          simp [Py.appendleft]
    have hquiet : ∀ p1 : Pipe S D M, p1.queues = p.queues.modify k (fun _ => rest.reverse) →
        waiting p1 k = rest ∧ (∀ j, j ≠ k → j ≠ k + 1 → waiting p1 j = waiting p j) ∧
        (waiting p1 (k + 1) = waiting p (k + 1) ∨
          (k + 1 < p.elems.length ∧ ∃ m' : Msg M, m'.target = m.target ∧ m'.payload = m.payload ∧
            waiting p1 (k + 1) = waiting p (k + 1) ++ [.msg m'])) := by
      intro p1 hq1
      have h2 : ∀ j, j ≠ k → waiting p1 j = waiting p j := by
        intro j hj; simp [waiting, hq1, Py.getElem?_mod_ne _ _ _ _ (Ne.symm hj)]
      exact ⟨by simp [waiting, hq1, hq], fun j h1 _ => h2 j h1, Or.inl (h2 _ (by omega))⟩
    unfold stageMsg
    dsimp only
    split
    · exact hpass { p with queues := p.queues.modify k (fun _ => rest.reverse) } m false rfl rfl rfl rfl
    · split
      · split
        · exact hpass (setSt { p with queues := p.queues.modify k (fun _ => rest.reverse) } k
            (B.deliver m.payload e).1) { m with nprocessed := m.nprocessed + 1 } true rfl rfl rfl
            (by simp [setSt])
        · exact hquiet _ rfl
      · exact hquiet _ rfl

example : waiting (processStage addBeh ⟨[⟨1, 7, 0⟩, ⟨2, 8, 0⟩], [0, 0],
    [[.data 9, .msg ⟨.obj 2, 0, 5⟩], [.data 1], []]⟩ 0).1 1 = [.data 1, .msg ⟨.obj 2, 0, 5⟩] := by decide

end Verif.Pipeline

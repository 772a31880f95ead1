import Verif.Transform
import Mathlib.Algebra.Group.Basic
import Mathlib.Algebra.Group.TypeTags.Basic
import Mathlib.Algebra.Ring.Int.Defs
import Mathlib.Tactic.Choose
import Mathlib.Tactic.Linarith

/-!
# Properties of the transform registry (C28, C29, C58, C59)
-/

namespace Verif.Transform

variable {Cls Obj Val : Type} [DecidableEq Cls]

/-! ## Specification -/

/-- The calls of a history that did not raise. -/
def accepted (s : State Cls Obj Val) : List (Op Cls Obj Val) → List (Op Cls Obj Val)
  | [] => []
  | op :: ops => match exec s op with
    | .ok s' => op :: accepted s' ops
    | .error _ => accepted s ops

/-- The call registers or deletes a transform from `a` to `b`. -/
def Touches (a b : Cls) : Op Cls Obj Val → Prop
  | .register a' b' _ _ => a' = a ∧ b' = b
  | .del a' b' => a' = a ∧ b' = b
  | _ => False

/-- `f` is the last transform from `a` to `b` registered in `h`, and it was not deleted since. -/
def LastRegistered (h : List (Op Cls Obj Val)) (a b : Cls) (f : Func Obj Val) : Prop :=
  ∃ h1 ow h2, h = h1 ++ .register a b f ow :: h2 ∧ ∀ op ∈ h2, ¬ Touches a b op

/-- The stored converter is the registered function: itself, or filtered through the function of its
transformation type (`types`), with the target class it was registered for. -/
def Realises (types : String → Option (Wrap Cls Obj Val)) (b : Cls) (f : Func Obj Val)
    (c : Conv Cls Obj Val) : Prop :=
  match f with
  | .plain f => c = .plain f
  | .typed ty base => ∃ w, types ty = some w ∧ c = .typed ty base w b

/-- The types named by the addTransType calls of a history. -/
def typeNames : List (Op Cls Obj Val) → List String
  | [] => []
  | .addType ty _ :: ops => ty :: typeNames ops
  | _ :: ops => typeNames ops

/-- A chain of registered transforms from `a` to `b`. -/
def IsPath (E : List (Cls × Cls)) (a b : Cls) (p : List Cls) : Prop :=
  p.head? = some a ∧ p.getLast? = some b ∧ p.IsChain (fun x y => (x, y) ∈ E)

/-- Contract of `nx.shortest_path` (every edge counts 1). -/
def ShortestPath (sp : SP Cls) : Prop :=
  ∀ E a b, match sp E a b with
    | some p => IsPath E a b p ∧ ∀ q, IsPath E a b q → p.length ≤ q.length
    | none => ∀ q, ¬ IsPath E a b q

/-- Applying the registered transforms along a list of classes, in order. -/
def follow (s : State Cls Obj Val) : List Cls → Obj → Except Err Obj
  | a :: b :: r, o => match step s a b o with
    | .error e => .error e
    | .ok o' => follow s (b :: r) o'
  | _, o => .ok o

/-! ## Association lists -/

section assoc
variable {K V : Type} [DecidableEq K]

theorem lookup_nil (k : K) : lookup ([] : List (K × V)) k = none := rfl

theorem lookup_cons (p : K × V) (l : List (K × V)) (k : K) :
    lookup (p :: l) k = if p.1 = k then some p.2 else lookup l k := by
  unfold lookup
  rw [List.find?_cons]
  by_cases h : p.1 = k <;> simp [h]

theorem lookup_assign (l : List (K × V)) (k k' : K) (v : V) :
    lookup (assign l k v) k' = if k = k' then some v else lookup l k' := by
  induction l with
  | nil => simp [assign, lookup_cons, lookup_nil]
  | cons p l ih =>
    unfold assign
    by_cases h : p.1 = k
    · simp only [h, if_true, lookup_cons]
      by_cases h' : k = k' <;> simp [h']
    · simp only [h, if_false, lookup_cons, ih]
      by_cases h' : k = k'
      · subst h'; simp [h]
      · simp [h']

theorem lookup_isSome_iff (l : List (K × V)) (k : K) :
    (lookup l k).isSome ↔ k ∈ l.map (·.1) := by
  induction l with
  | nil => simp [lookup_nil]
  | cons p l ih =>
    rw [lookup_cons]
    by_cases h : p.1 = k
    · simp [h]
    · have h' : ¬ k = p.1 := fun e => h e.symm
      simp only [h, if_false, ih, List.map_cons, List.mem_cons, h', false_or]

theorem lookup_remove (l : List (K × V)) (hl : (l.map (·.1)).Nodup) (k k' : K) :
    lookup (remove l k) k' = if k = k' then none else lookup l k' := by
  induction l with
  | nil => simp [remove, lookup_nil]
  | cons p l ih =>
    rw [List.map_cons, List.nodup_cons] at hl
    unfold remove
    by_cases h : p.1 = k
    · simp only [h, if_true, lookup_cons]
      by_cases h' : k = k'
      · subst h'
        simp only [if_true]
        have := (lookup_isSome_iff l k).not.2 (h ▸ hl.1)
        simpa using this
      · simp [h']
    · simp only [h, if_false, lookup_cons, ih hl.2]
      by_cases h' : k = k'
      · subst h'; simp [h]
      · simp [h']

theorem keys_assign (l : List (K × V)) (k : K) (v : V) :
    (assign l k v).map (·.1) = if k ∈ l.map (·.1) then l.map (·.1) else l.map (·.1) ++ [k] := by
  induction l with
  | nil => simp [assign]
  | cons p l ih =>
    unfold assign
    by_cases h : p.1 = k
    · simp [h]
    · have h' : ¬ k = p.1 := fun e => h e.symm
      simp only [h, if_false, List.map_cons, List.mem_cons, h', false_or, ih]
      split_ifs <;> simp

theorem nodup_assign (l : List (K × V)) (hl : (l.map (·.1)).Nodup) (k : K) (v : V) :
    ((assign l k v).map (·.1)).Nodup := by
  rw [keys_assign]
  split_ifs with h
  · exact hl
  · rw [List.nodup_append]
    exact ⟨hl, by simp, by intro a ha b hb; simp at hb; subst hb; exact fun e => h (e ▸ ha)⟩

theorem keys_remove_sublist (l : List (K × V)) (k : K) :
    ((remove l k).map (·.1)).Sublist (l.map (·.1)) := by
  induction l with
  | nil => simp [remove]
  | cons p l ih =>
    unfold remove
    split_ifs
    · simp
    · simpa using ih

end assoc

/-! ## The invariants of every history -/

theorem addType_keys (s : State Cls Obj Val) (ty : String) (w : Wrap Cls Obj Val) :
    (addTransType s ty w).conv.map (·.1) = s.conv.map (·.1) := by
  unfold addTransType
  simp only
  split
  · rw [List.map_map]
    apply List.map_congr_left
    rintro ⟨k, c⟩ _
    cases c with
    | plain f => rfl
    | typed t b w' tg => simp only [Function.comp]; split_ifs <;> rfl
  · rfl

/-- The registry keys are distinct and the cached graph, if there is one, is the present one. -/
def Good (s : State Cls Obj Val) : Prop :=
  (s.conv.map (·.1)).Nodup ∧ ∀ g, s.graph = some g → g = listAll s

theorem good_exec (s s' : State Cls Obj Val) (op : Op Cls Obj Val) (hs : Good s)
    (h : exec s op = .ok s') : Good s' := by
  obtain ⟨h1, h2⟩ := hs
  cases op with
  | register a b f ow =>
    simp only [exec, register] at h
    split at h
    · simp at h
    · cases f with
      | plain f =>
        simp only [Except.ok.injEq] at h; subst h
        exact ⟨nodup_assign _ h1 _ _, by simp [invalidate]⟩
      | typed ty base =>
        simp only at h
        split at h
        · simp at h
        · simp only [Except.ok.injEq] at h; subst h
          exact ⟨nodup_assign _ h1 _ _, by simp [invalidate]⟩
  | del a b =>
    simp only [exec, delTransform] at h
    split at h
    · simp at h
    · simp only [Except.ok.injEq] at h; subst h
      exact ⟨(keys_remove_sublist _ _).nodup h1, by simp [invalidate]⟩
  | addType ty w =>
    simp only [exec, Except.ok.injEq] at h; subst h
    refine ⟨by rw [addType_keys]; exact h1, ?_⟩
    intro g hg
    unfold listAll
    rw [addType_keys]
    exact h2 g hg
  | graph =>
    simp only [exec, Except.ok.injEq] at h; subst h
    unfold getGraph
    split
    · rename_i g hg; exact ⟨h1, h2⟩
    · refine ⟨h1, ?_⟩
      intro g hg
      simp only [Option.some.injEq] at hg
      subst hg; rfl

theorem good_run (s : State Cls Obj Val) (hs : Good s) (ops : List (Op Cls Obj Val)) :
    Good (run s ops) := by
  induction ops generalizing s with
  | nil => exact hs
  | cons op ops ih =>
    unfold run
    cases h : exec s op with
    | ok s' => exact ih s' (good_exec s s' op hs h)
    | error e => exact ih s hs

theorem good_init : Good ({} : State Cls Obj Val) := ⟨List.nodup_nil, by simp⟩

/-- C29: path queries are never answered from a stale graph: after any history the transform graph
handed out has exactly the pairs for which a transform is registered. -/
theorem graph_not_stale (ops : List (Op Cls Obj Val)) (a b : Cls) :
    let s := run ({} : State Cls Obj Val) ops
    (a, b) ∈ (getGraph s).1 ↔ ∃ c, getTransform s a b = .ok c := by
  intro s
  have hg : Good s := good_run _ good_init ops
  have he : (getGraph s).1 = listAll s := by
    unfold getGraph
    split
    · rename_i g h; exact hg.2 g h
    · rfl
  rw [he]
  unfold listAll getTransform
  rw [← lookup_isSome_iff]
  cases lookup s.conv (a, b) <;> simp

/-- C29: when registration and deletion are accepted; a rejected call changes nothing (it returns no
new state). -/
theorem register_accepted_iff (s : State Cls Obj Val) (a b : Cls) (f : Func Obj Val) (ow : Bool) :
    (∃ s', register s a b f ow = .ok s') ↔
      (ow = true ∨ ¬ ∃ c, getTransform s a b = .ok c) ∧
      (∀ ty base, f = .typed ty base → ∃ w, lookup s.transtypes ty = some w) := by
  unfold register getTransform
  cases ow <;> cases h : lookup s.conv (a, b) <;> cases f with
  | plain f => simp
  | typed ty base => cases h' : lookup s.transtypes ty <;> simp [h']

theorem register_occupied (s : State Cls Obj Val) (a b : Cls) (f : Func Obj Val)
    (h : ∃ c, getTransform s a b = .ok c) (ops : List (Op Cls Obj Val)) :
    register s a b f false = .error .valueError ∧
    run s (.register a b f false :: ops) = run s ops := by
  have h1 : register s a b f false = .error .valueError := by
    unfold getTransform at h
    unfold register
    cases h' : lookup s.conv (a, b) with
    | none => rw [h'] at h; simp at h
    | some c => simp
  exact ⟨h1, by rw [run]; simp only [exec, h1]⟩

theorem run_append (s : State Cls Obj Val) (h1 h2 : List (Op Cls Obj Val)) :
    run s (h1 ++ h2) = run (run s h1) h2 := by
  induction h1 generalizing s with
  | nil => rfl
  | cons op h1 ih =>
    simp only [List.cons_append, run]
    cases exec s op <;> simp [ih]

theorem accepted_append (s : State Cls Obj Val) (h1 h2 : List (Op Cls Obj Val)) :
    accepted s (h1 ++ h2) = accepted s h1 ++ accepted (run s h1) h2 := by
  induction h1 generalizing s with
  | nil => rfl
  | cons op h1 ih =>
    simp only [List.cons_append, run, accepted]
    cases exec s op <;> simp [ih]

theorem typeNames_append (h1 h2 : List (Op Cls Obj Val)) :
    typeNames (h1 ++ h2) = typeNames h1 ++ typeNames h2 := by
  induction h1 with
  | nil => rfl
  | cons op h1 ih => cases op <;> simp [typeNames, ih]

theorem lastRegistered_nil (a b : Cls) (f : Func Obj Val) : ¬ LastRegistered [] a b f := by
  rintro ⟨h1, ow, h2, h, _⟩
  simp at h

theorem lastRegistered_snoc (h : List (Op Cls Obj Val)) (op : Op Cls Obj Val) (a b : Cls)
    (f : Func Obj Val) :
    LastRegistered (h ++ [op]) a b f ↔
      (∃ ow, op = .register a b f ow) ∨ (¬ Touches a b op ∧ LastRegistered h a b f) := by
  constructor
  · rintro ⟨h1, ow, h2, he, hn⟩
    rcases List.eq_nil_or_concat h2 with rfl | ⟨h2', x, rfl⟩
    · left
      refine ⟨ow, ?_⟩
      have := List.append_inj' he rfl
      simpa using this.2
    · right
      rw [List.concat_eq_append] at *
      have he' : h ++ [op] = (h1 ++ .register a b f ow :: h2') ++ [x] := by
        rw [he]; simp
      obtain ⟨e1, e2⟩ := List.append_inj' he' rfl
      simp only [List.cons.injEq, and_true] at e2
      subst e2
      exact ⟨hn _ (by simp), h1, ow, h2', e1, fun o ho => hn o (by simp [ho])⟩
  · rintro (⟨ow, rfl⟩ | ⟨hn, h1, ow, h2, rfl, hh⟩)
    · exact ⟨h, ow, [], by simp, by simp⟩
    · refine ⟨h1, ow, h2 ++ [op], by simp, ?_⟩
      intro o ho
      rw [List.mem_append] at ho
      rcases ho with ho | ho
      · exact hh o ho
      · simp at ho; subst ho; exact hn

theorem mem_typeNames_iff_lookup (ops : List (Op Cls Obj Val)) (ty : String) :
    (lookup (run ({} : State Cls Obj Val) ops).transtypes ty).isSome ↔ ty ∈ typeNames ops := by
  induction ops using List.reverseRecOn with
  | nil => simp [run, typeNames, lookup_nil]
  | append_singleton ops op ih =>
    rw [run_append, typeNames_append, List.mem_append, ← ih]
    generalize run ({} : State Cls Obj Val) ops = s
    unfold run
    cases op with
    | register a b f ow =>
      simp only [exec, typeNames, List.not_mem_nil, or_false]
      unfold register
      split_ifs
      · simp [run]
      · cases f with
        | plain f => simp [run, invalidate]
        | typed t base =>
          simp only
          cases lookup s.transtypes t <;> simp [run, invalidate]
    | del a b =>
      simp only [exec, delTransform, typeNames, List.not_mem_nil, or_false]
      cases lookup s.conv (a, b) <;> simp [run, invalidate]
    | addType t w =>
      simp only [exec, run, addTransType, typeNames, List.mem_singleton, lookup_assign]
      by_cases h : t = ty
      · simp [h]
      · have h' : ¬ ty = t := fun e => h e.symm
        simp [h, h']
    | graph =>
      simp only [exec, run, typeNames, List.not_mem_nil, or_false]
      unfold getGraph
      split <;> rfl

theorem realises_unique (types : String → Option (Wrap Cls Obj Val)) (b : Cls) (f : Func Obj Val)
    (c c' : Conv Cls Obj Val) (h : Realises types b f c) (h' : Realises types b f c') : c = c' := by
  cases f with
  | plain g => rw [h, h']
  | typed t base =>
    obtain ⟨w1, e1, e2⟩ := h
    obtain ⟨w2, e3, e4⟩ := h'
    rw [e1] at e3; cases e3; rw [e2, e4]

/-- The relation between the state and the accepted calls, for one pair of classes. -/
def Tracks (s : State Cls Obj Val) (acc : List (Op Cls Obj Val)) (a b : Cls) : Prop :=
  (∀ c, lookup s.conv (a, b) = some c →
    ∃ f, LastRegistered acc a b f ∧ Realises (lookup s.transtypes) b f c) ∧
  (∀ f, LastRegistered acc a b f →
    ∃ c, lookup s.conv (a, b) = some c ∧ Realises (lookup s.transtypes) b f c)

theorem tracks_untouched (s s' : State Cls Obj Val) (acc : List (Op Cls Obj Val))
    (op : Op Cls Obj Val) (a b : Cls) (h : Tracks s acc a b)
    (hl : lookup s'.conv (a, b) = lookup s.conv (a, b))
    (hr : ∀ f c, Realises (lookup s.transtypes) b f c → Realises (lookup s'.transtypes) b f c)
    (ht : ¬ Touches a b op) : Tracks s' (acc ++ [op]) a b := by
  constructor
  · intro c hc
    rw [hl] at hc
    obtain ⟨f, h1, h2⟩ := h.1 c hc
    exact ⟨f, (lastRegistered_snoc _ _ _ _ _).2 (Or.inr ⟨ht, h1⟩), hr _ _ h2⟩
  · intro f hf
    rcases (lastRegistered_snoc _ _ _ _ _).1 hf with ⟨ow, rfl⟩ | ⟨_, h'⟩
    · exact absurd ⟨rfl, rfl⟩ ht
    · obtain ⟨c, h1, h2⟩ := h.2 f h'
      exact ⟨c, by rw [hl]; exact h1, hr _ _ h2⟩

theorem tracks_run (ops : List (Op Cls Obj Val)) (hno : (typeNames ops).Nodup) (a b : Cls) :
    Tracks (run {} ops) (accepted {} ops) a b := by
  induction ops using List.reverseRecOn with
  | nil =>
    exact ⟨by simp [run, lookup_nil], fun f hf => absurd hf (lastRegistered_nil _ _ _)⟩
  | append_singleton ops op ih =>
    rw [typeNames_append, List.nodup_append] at hno
    obtain ⟨hno1, hno2, hno3⟩ := hno
    specialize ih hno1
    have hgood : Good (run ({} : State Cls Obj Val) ops) := good_run _ good_init ops
    have hnames := fun ty => mem_typeNames_iff_lookup ops ty
    rw [run_append, accepted_append]
    generalize run ({} : State Cls Obj Val) ops = s at *
    generalize accepted ({} : State Cls Obj Val) ops = acc at *
    cases he : exec s op with
    | error e => simpa only [run, accepted, he, List.append_nil] using ih
    | ok s' =>
      have hacc : accepted s [op] = [op] := by simp [accepted, he]
      have hrun : run s [op] = s' := by simp [run, he]
      rw [hacc, hrun]
      cases op with
      | register a' b' f' ow =>
        simp only [exec, register] at he
        split at he
        · simp at he
        · obtain ⟨cv, hcv, hs', ht⟩ : ∃ cv, Realises (lookup s.transtypes) b' f' cv ∧
              (∀ k, lookup s'.conv k = if (a', b') = k then some cv else lookup s.conv k) ∧
              s'.transtypes = s.transtypes := by
            cases f' with
            | plain g =>
              simp only [Except.ok.injEq] at he
              subst he
              exact ⟨.plain g, rfl, fun k => lookup_assign _ _ _ _, rfl⟩
            | typed ty base =>
              simp only at he
              split at he
              · simp at he
              · rename_i w hw
                simp only [Except.ok.injEq] at he
                subst he
                exact ⟨.typed ty base w b', ⟨w, hw, rfl⟩, fun k => lookup_assign _ _ _ _, rfl⟩
          by_cases hk : (a', b') = (a, b)
          · obtain ⟨rfl, rfl⟩ := Prod.mk.inj hk
            unfold Tracks
            rw [hs', ht]
            simp only [if_true, Option.some.injEq]
            constructor
            · rintro c rfl
              exact ⟨f', (lastRegistered_snoc _ _ _ _ _).2 (Or.inl ⟨ow, rfl⟩), hcv⟩
            · intro f hf
              rcases (lastRegistered_snoc _ _ _ _ _).1 hf with ⟨ow', h⟩ | ⟨h, _⟩
              · simp only [Op.register.injEq, true_and] at h
                obtain ⟨rfl, -⟩ := h
                exact ⟨cv, rfl, hcv⟩
              · exact absurd ⟨rfl, rfl⟩ h
          · refine tracks_untouched s s' acc _ a b ih (by rw [hs', if_neg hk]) ?_ ?_
            · intro f c h; rw [ht]; exact h
            · rintro ⟨rfl, rfl⟩; exact hk rfl
      | del a' b' =>
        simp only [exec, delTransform] at he
        split at he
        · simp at he
        · simp only [Except.ok.injEq] at he
          subst he
          by_cases hk : (a', b') = (a, b)
          · obtain ⟨rfl, rfl⟩ := Prod.mk.inj hk
            constructor
            · intro c hc
              simp only [invalidate] at hc
              rw [lookup_remove _ hgood.1] at hc
              simp at hc
            · intro f hf
              rcases (lastRegistered_snoc _ _ _ _ _).1 hf with ⟨ow', h⟩ | ⟨h, _⟩
              · simp at h
              · exact absurd ⟨rfl, rfl⟩ h
          · refine tracks_untouched s _ acc _ a b ih ?_ (fun f c h => h) ?_
            · simp only [invalidate]
              rw [lookup_remove _ hgood.1, if_neg hk]
            · rintro ⟨rfl, rfl⟩; exact hk rfl
      | addType ty w =>
        simp only [exec, Except.ok.injEq] at he
        subst he
        have hnew : lookup s.transtypes ty = none := by
          have : ty ∉ typeNames ops := fun h => hno3 ty h ty (by simp [typeNames]) rfl
          rw [← hnames] at this
          simpa using this
        have hconv : (addTransType s ty w).conv = s.conv := by
          unfold addTransType; simp only [hnew]
        refine tracks_untouched s _ acc _ a b ih (by rw [hconv]) ?_ (by simp [Touches])
        intro f c hf
        cases f with
        | plain g => exact hf
        | typed t base =>
          obtain ⟨w', h1, h2⟩ := hf
          refine ⟨w', ?_, h2⟩
          have htt : lookup (addTransType s ty w).transtypes t
            = if ty = t then some w else lookup s.transtypes t := lookup_assign _ _ _ _
          rw [htt]
          have : ty ≠ t := by rintro rfl; rw [hnew] at h1; simp at h1
          rw [if_neg this]; exact h1
      | graph =>
        simp only [exec, Except.ok.injEq] at he
        subst he
        have hc' : (getGraph s).2.conv = s.conv := by unfold getGraph; split <;> rfl
        have ht : (getGraph s).2.transtypes = s.transtypes := by unfold getGraph; split <;> rfl
        refine tracks_untouched s _ acc _ a b ih (by rw [hc']) ?_ (by simp [Touches])
        intro f c h; rw [ht]; exact h

/-- C29 (partial): after any history in which no transformation type is redefined, the transform
found for a pair is the one last registered (by an accepted call) and not deleted since, filtered
through its transformation type; and nothing else is found.  Without the restriction it is false:
see `redefinition_merges`. -/
theorem registry_exact (ops : List (Op Cls Obj Val)) (hno : (typeNames ops).Nodup)
    (a b : Cls) (c : Conv Cls Obj Val) :
    getTransform (run {} ops) a b = .ok c ↔
      ∃ f, LastRegistered (accepted {} ops) a b f ∧
        Realises (lookup (run ({} : State Cls Obj Val) ops).transtypes) b f c := by
  have hget : getTransform (run ({} : State Cls Obj Val) ops) a b = .ok c ↔
      lookup (run ({} : State Cls Obj Val) ops).conv (a, b) = some c := by
    unfold getTransform
    cases lookup (run ({} : State Cls Obj Val) ops).conv (a, b) <;> simp
  rw [hget]
  obtain ⟨h1, h2⟩ := tracks_run ops hno a b
  constructor
  · exact h1 c
  · rintro ⟨f, hf, hr⟩
    obtain ⟨c', hc', hr'⟩ := h2 f hf
    rw [hc', realises_unique _ _ _ _ _ hr hr']

/-- A typed converter of the type, with the given base function and target. -/
def IsTyped (ty : String) (c : Conv Cls Obj Val) : Prop :=
  ∃ base w tg, c = .typed ty base w tg

theorem lastBase_isSome (ty : String) (l : List ((Cls × Cls) × Conv Cls Obj Val))
    (h : ∃ p ∈ l, IsTyped ty p.2) : ∃ b, lastBase ty l = some b := by
  induction l with
  | nil => simp at h
  | cons p l ih =>
    obtain ⟨k, c⟩ := p
    by_cases h' : ∃ p ∈ l, IsTyped ty p.2
    · obtain ⟨b, hb⟩ := ih h'
      cases c with
      | plain f => exact ⟨b, hb⟩
      | typed t base w tg => exact ⟨b, by simp [lastBase, hb]⟩
    · obtain ⟨q, hq, hq'⟩ := h
      rw [List.mem_cons] at hq
      rcases hq with rfl | hq
      · obtain ⟨base, w, tg, rfl⟩ := hq'
        cases hb : lastBase ty l with
        | some b => exact ⟨b, by simp [lastBase, hb]⟩
        | none => exact ⟨base, by simp [lastBase, hb]⟩
      · exact absurd ⟨q, hq, hq'⟩ h'

theorem lastTo_isSome (l : List ((Cls × Cls) × Conv Cls Obj Val)) (h : l ≠ []) :
    ∃ c, lastTo l = some c := by
  cases l with
  | nil => exact absurd rfl h
  | cons p l =>
    unfold lastTo
    cases lastTo l with
    | some c => exact ⟨c, rfl⟩
    | none => exact ⟨_, rfl⟩

/-- C29 refuted: redefining a transformation type turns *all* the converters of that type into one
and the same function: a single base function and a single target class are used for every pair. -/
theorem redefinition_merges (s : State Cls Obj Val) (ty : String) (w w' : Wrap Cls Obj Val)
    (hdef : lookup s.transtypes ty = some w') (h : ∃ p ∈ s.conv, IsTyped ty p.2) :
    ∃ base tg, ∀ p ∈ (addTransType s ty w).conv, IsTyped ty p.2 → p.2 = .typed ty base w tg := by
  obtain ⟨base, hb⟩ := lastBase_isSome ty s.conv h
  obtain ⟨tg, ht⟩ := lastTo_isSome s.conv (by rintro e; rw [e] at h; simp at h)
  refine ⟨base, tg, ?_⟩
  intro p hp hty
  unfold addTransType at hp
  simp only [hdef, hb, ht] at hp
  rw [List.mem_map] at hp
  obtain ⟨q, hq, rfl⟩ := hp
  obtain ⟨k, c⟩ := q
  cases c with
  | plain f => obtain ⟨b1, w1, t1, e⟩ := hty; simp at e
  | typed t b1 w1 t1 =>
    simp only at hty ⊢
    by_cases he : t = ty
    · subst he; simp
    · rw [if_neg he] at hty
      obtain ⟨b2, w2, t2, e⟩ := hty
      simp only [Conv.typed.injEq] at e
      exact absurd e.1 he

/-- A concrete history (classes 0, 1, 2; objects are pairs (class, value); the type adds the
transform's value): after redefining the type, the transform registered from 0 to 1 produces an
object of class 2 with the other transform's value. -/
def redefHistory : List (Op Nat (Nat × Nat) Nat) :=
  [.addType "add" (fun v o c => some (c, o.2 + v)),
   .register 0 1 (.typed "add" (fun _ => some 10)) true,
   .register 0 2 (.typed "add" (fun _ => some 500)) true,
   .addType "add" (fun v o c => some (c, o.2 + v))]

theorem redefinition_example :
    (match getTransform (run {} redefHistory) 0 1 with
      | .ok c => c.call (0, 7) | .error _ => none) = some (2, 507) ∧
    (match getTransform (run {} (redefHistory.take 3)) 0 1 with
      | .ok c => c.call (0, 7) | .error _ => none) = some (1, 17) := by
  constructor <;> rfl

/-! ## Conversion (C28) -/

/-- The networkx contract can be met (so the theorems below are not vacuous). -/
theorem shortestPath_exists : ∃ sp : SP Cls, ShortestPath sp := by
  classical
  have key : ∀ (E : List (Cls × Cls)) (a b : Cls), ∃ r : Option (List Cls), match r with
      | some p => IsPath E a b p ∧ ∀ q, IsPath E a b q → p.length ≤ q.length
      | none => ∀ q, ¬ IsPath E a b q := by
    intro E a b
    by_cases h : ∃ p, IsPath E a b p
    · have h' : ∃ n, ∃ p, IsPath E a b p ∧ p.length = n := by
        obtain ⟨p, hp⟩ := h; exact ⟨_, p, hp, rfl⟩
      obtain ⟨p, hp, hn⟩ := Nat.find_spec h'
      exact ⟨some p, hp, fun q hq => by rw [hn]; exact Nat.find_min' h' ⟨q, hq, rfl⟩⟩
    · exact ⟨none, fun q hq => h ⟨q, hq⟩⟩
  choose f hf using key
  exact ⟨f, hf⟩

theorem follow_walk (s : State Cls Obj Val) (m : List Cls) (a b : Cls) (o : Obj) :
    follow s (a :: m ++ [b]) o =
      match walk s a o m with
      | .error e => .error e
      | .ok (curr, o') => step s curr b o' := by
  induction m generalizing a o with
  | nil =>
    simp only [List.cons_append, List.nil_append, follow, walk]
    cases step s a b o <;> simp
  | cons c m ih =>
    simp only [List.cons_append, follow, walk]
    cases step s a c o with
    | error e => rfl
    | ok o' => exact ih c o'

theorem path_decompose (E : List (Cls × Cls)) (a b : Cls) (p : List Cls) (h : IsPath E a b p)
    (hne : a ≠ b) : p = a :: p.tail.dropLast ++ [b] := by
  obtain ⟨h1, h2, _⟩ := h
  cases p with
  | nil => simp at h1
  | cons x p =>
    simp only [List.head?_cons, Option.some.injEq] at h1
    subst h1
    cases hp : p with
    | nil => subst hp; simp at h2; exact absurd h2 hne
    | cons y p' =>
      have : p ≠ [] := by rw [hp]; simp
      rw [← hp]
      have hl : p.getLast? = some b := by
        rw [hp] at h2 ⊢
        simpa using h2
      rw [List.getLast?_eq_some_iff] at hl
      obtain ⟨q, rfl⟩ := hl
      simp

/-- C28: after any history, converting to another class: if some chain of registered transforms
leads there, the result is that of applying, in order, the transforms along a chain with the fewest
steps; otherwise the conversion raises. -/
theorem convert_spec (sp : SP Cls) (hsp : ShortestPath sp) (clsOf : Obj → Cls)
    (ops : List (Op Cls Obj Val)) (o : Obj) (b : Cls) (hne : clsOf o ≠ b) :
    let s := run ({} : State Cls Obj Val) ops
    (∀ q, IsPath (listAll s) (clsOf o) b q →
      ∃ p, IsPath (listAll s) (clsOf o) b p ∧
        (∀ q, IsPath (listAll s) (clsOf o) b q → p.length ≤ q.length) ∧
        (convert sp clsOf s o b).1 = follow s p o) ∧
    ((∀ q, ¬ IsPath (listAll s) (clsOf o) b q) → (convert sp clsOf s o b).1 = .error .noPath) := by
  intro s
  have hg : Good s := good_run _ good_init ops
  have he : (getGraph s).1 = listAll s := by
    unfold getGraph
    split
    · rename_i g h; exact hg.2 g h
    · rfl
  have hconv : (getGraph s).2.conv = s.conv := by unfold getGraph; split <;> rfl
  have hstep : ∀ a c o, step (getGraph s).2 a c o = step s a c o := by
    intro a c o; unfold step; rw [hconv]
  have hwalk : ∀ m a o, walk (getGraph s).2 a o m = walk s a o m := by
    intro m
    induction m with
    | nil => intros; rfl
    | cons c m ih => intro a o; simp only [walk, hstep, ih]
  have hspec := hsp (listAll s) (clsOf o) b
  cases hd : lookup s.conv (clsOf o, b) with
  | some c =>
    have hmem : (clsOf o, b) ∈ listAll s := by
      unfold listAll; rw [← lookup_isSome_iff, hd]; rfl
    have hp : IsPath (listAll s) (clsOf o) b [clsOf o, b] :=
      ⟨rfl, rfl, by simpa using hmem⟩
    constructor
    · intro q _
      refine ⟨[clsOf o, b], hp, ?_, ?_⟩
      · intro q hq
        rw [path_decompose _ _ _ _ hq hne]
        simp
      · unfold convert getPath
        simp only [hd]
        simp only [follow, step, hd]
        cases c.call o <;> simp
    · intro hn; exact absurd hp (hn _)
  | none =>
    cases hr : sp (listAll s) (clsOf o) b with
    | none =>
      rw [hr] at hspec
      constructor
      · intro q hq; exact absurd hq (hspec q)
      · intro _
        unfold convert getPath
        simp only [hd, he, hr]
    | some p =>
      rw [hr] at hspec
      constructor
      · intro q _
        refine ⟨p, hspec.1, hspec.2, ?_⟩
        have hdec := path_decompose _ _ _ _ hspec.1 hne
        unfold convert getPath
        simp only [hd, he, hr]
        rw [hwalk]
        conv_rhs => rw [hdec, follow_walk]
        cases walk s (clsOf o) o p.tail.dropLast with
        | error e => rfl
        | ok r => obtain ⟨c', o'⟩ := r; simp [hstep]
      · intro hn; exact absurd hspec.1 (hn _)

/-- C28: if every registered transform produces objects of its target class, a successful conversion
produces an object of the requested class. -/
theorem convert_class (sp : SP Cls) (hsp : ShortestPath sp) (clsOf : Obj → Cls)
    (ops : List (Op Cls Obj Val)) (o o' : Obj) (b : Cls)
    (hcls : ∀ a c f o1 o2, getTransform (run ({} : State Cls Obj Val) ops) a c = .ok f →
      clsOf o1 = a → f.call o1 = some o2 → clsOf o2 = c)
    (h : (convertLatLong sp clsOf (run ({} : State Cls Obj Val) ops) o b).1 = .ok o') :
    clsOf o' = b := by
  unfold convertLatLong at h
  split at h
  · rename_i hb
    simp only [Except.ok.injEq] at h
    rw [← h, hb]
  · rename_i hb
    have hne : clsOf o ≠ b := fun e => hb e.symm
    have hfollow : ∀ (p : List Cls) (a : Cls) (o1 o2 : Obj), p.head? = some a → clsOf o1 = a →
        follow (run ({} : State Cls Obj Val) ops) p o1 = .ok o2 → p.getLast? = some (clsOf o2) := by
      intro p
      induction p with
      | nil => intro a o1 o2 h1; simp at h1
      | cons x p ih =>
        intro a o1 o2 h1 h2 h3
        simp only [List.head?_cons, Option.some.injEq] at h1
        subst h1
        cases p with
        | nil =>
          simp only [follow, Except.ok.injEq] at h3
          subst h3; simp [h2]
        | cons y p =>
          simp only [follow] at h3
          cases hs : step (run ({} : State Cls Obj Val) ops) x y o1 with
          | error e => rw [hs] at h3; simp at h3
          | ok o3 =>
            rw [hs] at h3
            have h4 : clsOf o3 = y := by
              unfold step at hs
              cases hl : lookup (run ({} : State Cls Obj Val) ops).conv (x, y) with
              | none => rw [hl] at hs; simp at hs
              | some c =>
                rw [hl] at hs
                simp only at hs
                cases hc : c.call o1 with
                | none => rw [hc] at hs; simp at hs
                | some o4 =>
                  rw [hc] at hs
                  simp only [Except.ok.injEq] at hs
                  subst hs
                  exact hcls x y c o1 o4 (by unfold getTransform; rw [hl]) h2 hc
            have := ih y o3 o2 rfl h4 h3
            simpa using this
    have hs := convert_spec sp hsp clsOf ops o b hne
    simp only at hs
    by_cases hex : ∃ q, IsPath (listAll (run ({} : State Cls Obj Val) ops)) (clsOf o) b q
    · obtain ⟨q, hq⟩ := hex
      obtain ⟨p, hp, _, hc⟩ := hs.1 q hq
      rw [hc] at h
      have := hfollow p (clsOf o) o o' hp.1 rfl h
      rw [hp.2.1] at this
      exact (Option.some.inj this).symm
    · have := hs.2 (fun q hq => hex ⟨q, hq⟩)
      rw [this] at h
      simp at h

/-- C28: angular coordinates convert to their own class: the very same object. -/
theorem convert_own_class_latlong (sp : SP Cls) (clsOf : Obj → Cls) (s : State Cls Obj Val)
    (o : Obj) : convertLatLong sp clsOf s o (clsOf o) = (.ok o, s) := by
  simp [convertLatLong]

/-- C28 refuted for the other coordinate classes (rectangular ones): converting to the object's own
class raises, unless a transform from the class to itself happens to be registered. -/
theorem convert_own_class_fails (sp : SP Cls) (hsp : ShortestPath sp) (clsOf : Obj → Cls)
    (s : State Cls Obj Val) (o : Obj) (h : getTransform s (clsOf o) (clsOf o) = .error .keyError) :
    (convert sp clsOf s o (clsOf o)).1 = .error .keyError := by
  have hl : lookup s.conv (clsOf o, clsOf o) = none := by
    unfold getTransform at h
    cases hh : lookup s.conv (clsOf o, clsOf o) with
    | none => rfl
    | some c => rw [hh] at h; simp at h
  have hconv : (getGraph s).2.conv = s.conv := by unfold getGraph; split <;> rfl
  have hspec := hsp (getGraph s).1 (clsOf o) (clsOf o)
  have hp : IsPath (getGraph s).1 (clsOf o) (clsOf o) [clsOf o] := ⟨rfl, rfl, by simp⟩
  unfold convert getPath
  simp only [hl]
  cases hr : sp (getGraph s).1 (clsOf o) (clsOf o) with
  | none => rw [hr] at hspec; exact absurd hp (hspec _)
  | some p =>
    rw [hr] at hspec
    have hlen := hspec.2 _ hp
    have hp1 : p.tail.dropLast = [] := by
      cases p with
      | nil => rfl
      | cons x p =>
        simp only [List.length_cons, List.length_nil] at hlen
        have : p = [] := List.eq_nil_of_length_eq_zero (by omega)
        simp [this]
    simp only [hp1, walk, step, hconv, hl]

/-- Non-vacuity: a history with a two-step conversion 0 → 1 → 2 and no direct one. -/
def chainHistory : List (Op Nat (Nat × Nat) Nat) :=
  [.addType "add" (fun v o c => some (c, o.2 + v)),
   .register 0 1 (.typed "add" (fun _ => some 10)) true,
   .graph,
   .register 1 2 (.plain (fun o => some (2, 3 * o.2))) true,
   .register 0 1 (.plain (fun _ => none)) false]

theorem chain_example (sp : SP Nat) (hsp : ShortestPath sp) :
    (convert sp (·.1) (run {} chainHistory) (0, 5) 2).1 = .ok (2, 45) := by
  have hl : listAll (run ({} : State Nat (Nat × Nat) Nat) chainHistory) = [(0, 1), (1, 2)] := rfl
  have hs := convert_spec sp hsp (·.1) chainHistory ((0, 5) : Nat × Nat) 2 (by decide)
  simp only at hs
  have hq : IsPath (listAll (run ({} : State Nat (Nat × Nat) Nat) chainHistory)) 0 2 [0, 1, 2] :=
    ⟨rfl, rfl, by rw [hl]; decide⟩
  obtain ⟨p, hp, hmin, hc⟩ := hs.1 _ hq
  rw [hc]
  have hlen := hmin _ hq
  have hdec := path_decompose _ _ _ _ hp (by decide)
  have hp3 : p = [0, 1, 2] := by
    rw [hdec] at hlen hp ⊢
    generalize p.tail.dropLast = m at *
    obtain ⟨_, _, h3⟩ := hp
    rw [hl] at h3
    match m, hlen, h3 with
    | [], _, h3 => simp at h3
    | [x], _, h3 => simp at h3 ⊢; omega
    | x :: y :: m, hlen, _ => simp at hlen
  rw [hp3]
  rfl

/-! ## Stacked decorators (C59) -/

/-- One `@registerTransform` decorator registers its pair. -/
theorem one_decorator (p : Cls × Cls) : (stack [p]).map registered = some [p] := rfl

/-- C59 refuted: two stacked decorators register nothing at all, and three or more make the class
definition raise. -/
theorem stacked_decorators_lost (p q : Cls × Cls) :
    (stack [p, q]).map registered = some [] ∧
    ∀ r rs, stack (r :: rs ++ [p, q]) = none := by
  refine ⟨rfl, ?_⟩
  intro r rs
  have : ∀ l : List (Cls × Cls), stack (l ++ [p, q]) = none ∨ (l = []) := by
    intro l
    induction l with
    | nil => right; rfl
    | cons x l ih =>
      left
      rcases ih with h | rfl
      · simp [stack, h]
      · rfl
  rcases this (r :: rs) with h | h
  · exact h
  · simp at h

/-! ## Matrix-combining conversion (C58) -/

section optimize
variable {M O : Type} [Mul M] (applyM : M → O → O)

/-- The last applied operation of a purely matrix tail. -/
theorem combine_matrices (hlaw : ∀ m2 m1 o, applyM (m2 * m1) o = applyM m2 (applyM m1 o))
    (ms : List M) (cm : M) (o : O) :
    applyLegs applyM (combine (some cm) (ms.map Leg.smatrix)) o
      = applyLegs applyM (ms.map Leg.smatrix) (applyM cm o) := by
  induction ms generalizing cm with
  | nil => rfl
  | cons m ms ih =>
    simp only [List.map_cons, combine]
    rw [ih (m * cm), hlaw]
    rfl

/-- C58 (partial): on a path whose matrix transforms all come last, combining the matrices gives the
same result as converting step by step. -/
theorem optimized_correct (hlaw : ∀ m2 m1 o, applyM (m2 * m1) o = applyM m2 (applyM m1 o))
    (fs : List (O → O)) (ms : List M) (o : O) :
    convertOptimized applyM (fs.map Leg.other ++ ms.map Leg.smatrix) o
      = applyLegs applyM (fs.map Leg.other ++ ms.map Leg.smatrix) o := by
  unfold convertOptimized
  induction fs generalizing o with
  | nil =>
    cases ms with
    | nil => rfl
    | cons m ms =>
      simp only [List.map_nil, List.nil_append, List.map_cons, combine]
      rw [combine_matrices applyM hlaw]
      rfl
  | cons f fs ih =>
    simp only [List.map_cons, List.cons_append, combine, applyLegs]
    exact ih (f o)

/-- C58 refuted: if any other transform follows a matrix one, the matrix is applied again: the
path (matrix `m`, function `f`) computes `m (f (m o))` instead of `f (m o)`. -/
theorem optimized_repeats_matrix (m : M) (f : O → O) (o : O) :
    convertOptimized applyM [.smatrix m, .other f] o = applyM m (f (applyM m o)) ∧
    applyLegs applyM [.smatrix m, .other f] o = f (applyM m o) := ⟨rfl, rfl⟩

end optimize

/-- A concrete wrong result: additive "matrices" 5 and doubling. -/
example : convertOptimized (M := Multiplicative ℤ) (Obj := ℤ)
    (fun m o => Multiplicative.toAdd m + o)
    [.smatrix (Multiplicative.ofAdd 5), .other (fun x => 2 * x)] 1 = 17 ∧
    applyLegs (M := Multiplicative ℤ) (Obj := ℤ) (fun m o => Multiplicative.toAdd m + o)
    [.smatrix (Multiplicative.ofAdd 5), .other (fun x => 2 * x)] 1 = 12 := by
  constructor <;> rfl

end Verif.Transform

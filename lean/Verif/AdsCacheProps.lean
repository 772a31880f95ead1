import Verif.AdsCache

/-! # Bibliographic records: theorems (C157, C158; astropysics/objcat.py 1552-1850) -/

namespace Verif.AdsCache

/-! ## Specification of the cache: what can be seen from outside -/

/-- What can be observed: requests that gave a record, requests that did not, and the calls that control the cache. -/
inductive Ev
  | answered (c : Text) (r : Rec)
  | failed (c : Text)
  | cleared (c : Option Text)
  | on
  | off

/-- What a lookup shows to the server. -/
def request (net : Nat → Text → Except Err (List Rec)) (w : World) (c : Text) : Ev :=
  match net w.time c with
  | .ok [r] => .answered c r
  | _ => .failed c

/-- What an operation shows. -/
def event (ads : Text) (net : Nat → Text → Except Err (List Rec)) (w : World) : Op → List Ev
  | .lookup none => []
  | .lookup (some c) => if (getRec ads net w (some c)).1.time = w.time then [] else [request net w c]
  | .clear c => [.cleared c]
  | .use b => [if b then .on else .off]

/-- A history with what was observed, newest first. -/
def observe (ads : Text) (net : Nat → Text → Except Err (List Rec)) : World × List Ev → List Op → World × List Ev
  | p, [] => p
  | p, op :: ops => observe ads net (step ads net p.1 op, event ads net p.1 op ++ p.2) ops

/-- The cache is in use: it was never switched off, or switched on since. -/
def InUse (tr : List Ev) : Prop := ∀ later earlier, tr = later ++ .off :: earlier → .on ∈ later

/-- The record of a code is known: a request has given it, while the cache was in use, and since then neither it nor everything was
cleared, nor the cache switched off. -/
def Known (tr : List Ev) (c : Text) (r : Rec) : Prop :=
  ∃ later earlier, tr = later ++ .answered c r :: earlier ∧ InUse earlier ∧
    (∀ e ∈ later, e ≠ .off ∧ e ≠ .cleared none ∧ e ≠ .cleared (some c) ∧ ∀ r', e ≠ .answered c r')

/-! ## Proofs -/

theorem inUse_nil : InUse [] := by
  intro l e h
  simp at h

theorem inUse_on (tr : List Ev) : InUse (.on :: tr) := by
  intro l e h
  cases l with
  | nil => simp at h
  | cons a l =>
    simp only [List.cons_append, List.cons.injEq] at h
    rw [← h.1]; simp

theorem not_inUse_off (tr : List Ev) : ¬ InUse (.off :: tr) := by
  intro h
  simpa using h [] tr rfl

theorem inUse_cons {e : Ev} (h1 : e ≠ .on) (h2 : e ≠ .off) (tr : List Ev) : InUse (e :: tr) ↔ InUse tr := by
  constructor
  · intro h l er he
    have := h (e :: l) er (by rw [he]; rfl)
    rcases List.mem_cons.1 this with h' | h'
    · exact absurd h'.symm h1
    · exact h'
  · intro h l er he
    cases l with
    | nil => simp at he; exact absurd he.1 h2
    | cons a l =>
      simp only [List.cons_append, List.cons.injEq] at he
      exact List.mem_cons_of_mem _ (h l er he.2)

theorem not_known_nil (c : Text) (r : Rec) : ¬ Known [] c r := by
  rintro ⟨l, e, h, -⟩
  simp at h

theorem known_answered (c : Text) (r r' : Rec) (tr : List Ev) : Known (.answered c r :: tr) c r' ↔ r = r' ∧ InUse tr := by
  constructor
  · rintro ⟨l, e, h, hu, hl⟩
    cases l with
    | nil =>
      simp only [List.nil_append, List.cons.injEq, Ev.answered.injEq, true_and] at h
      exact ⟨h.1, h.2 ▸ hu⟩
    | cons a l =>
      simp only [List.cons_append, List.cons.injEq] at h
      exact absurd h.1.symm ((hl a (by simp)).2.2.2 r)
  · rintro ⟨rfl, hu⟩
    exact ⟨[], tr, rfl, hu, by simp⟩

/-- An event that does not concern the code. -/
theorem known_other {e : Ev} {c : Text} (h1 : e ≠ .off) (h2 : e ≠ .cleared none) (h3 : e ≠ .cleared (some c)) (h4 : ∀ r', e ≠ .answered c r')
    (r : Rec) (tr : List Ev) : Known (e :: tr) c r ↔ Known tr c r := by
  constructor
  · rintro ⟨l, er, h, hu, hl⟩
    cases l with
    | nil =>
      simp only [List.nil_append, List.cons.injEq] at h
      exact absurd h.1 (h4 r)
    | cons a l =>
      simp only [List.cons_append, List.cons.injEq] at h
      exact ⟨l, er, h.2, hu, fun x hx => hl x (List.mem_cons_of_mem _ hx)⟩
  · rintro ⟨l, er, h, hu, hl⟩
    refine ⟨e :: l, er, by rw [h]; rfl, hu, ?_⟩
    intro x hx
    rcases List.mem_cons.1 hx with rfl | hx
    · exact ⟨h1, h2, h3, h4⟩
    · exact hl x hx

/-- An event after which the code is unknown. -/
theorem known_lost {e : Ev} {c : Text} (h : e = .off ∨ e = .cleared none ∨ e = .cleared (some c)) (r : Rec) (tr : List Ev) : ¬ Known (e :: tr) c r := by
  rintro ⟨l, er, he, hu, hl⟩
  cases l with
  | nil =>
    simp only [List.nil_append, List.cons.injEq] at he
    rcases h with rfl | rfl | rfl <;> exact absurd he.1 (by simp)
  | cons a l =>
    simp only [List.cons_append, List.cons.injEq] at he
    have := hl a (by simp)
    rw [← he.1] at this
    rcases h with rfl | rfl | rfl
    · exact this.1 rfl
    · exact this.2.1 rfl
    · exact this.2.2.1 rfl

theorem look_filter_ne (m : List (Text × Rec)) (c k : Text) : look (m.filter fun p => decide (p.1 ≠ c)) k = if k = c then none else look m k := by
  induction m with
  | nil => simp [look]
  | cons p m ih =>
    obtain ⟨k', r⟩ := p
    by_cases h : k' = c
    · rw [List.filter_cons_of_neg (by simp [h]), ih]
      by_cases hk : k = c
      · simp [hk]
      · have : k' ≠ k := fun e => hk (e ▸ h)
        simp only [hk, if_false, look, this]
    · rw [List.filter_cons_of_pos (by simp [h])]
      simp only [look, ih]
      by_cases hk : k' = k
      · have : k ≠ c := fun e => h (hk.trans e)
        simp [hk, this]
      · simp [hk]

/-- What the cache holds is what is known. -/
def Agrees (p : World × List Ev) : Prop :=
  (p.1.cache.isSome = true ↔ InUse p.2) ∧ ∀ c r, cached p.1 c = some r ↔ Known p.2 c r

theorem known_inUse {tr : List Ev} {c : Text} {r : Rec} (h : Known tr c r) : InUse tr := by
  obtain ⟨l, e, rfl, hu, hl⟩ := h
  induction l with
  | nil => exact (inUse_cons (by simp) (by simp) _).2 hu
  | cons a l ih =>
    have ih := ih (fun x hx => hl x (List.mem_cons_of_mem _ hx))
    by_cases ha : a = .on
    · subst ha; exact inUse_on _
    · exact (inUse_cons ha (hl a (by simp)).1 _).2 ih

theorem agrees_start : Agrees (start, []) := by
  refine ⟨⟨fun _ => inUse_nil, fun _ => rfl⟩, fun c r => ⟨fun h => ?_, fun h => absurd h (not_known_nil c r)⟩⟩
  simp [start, cached, look] at h

theorem agrees_clear {w : World} {tr : List Ev} (h : Agrees (w, tr)) (c : Option Text) : Agrees ((clear w c).1, .cleared c :: tr) := by
  have hu := inUse_cons (e := .cleared c) (by simp) (by simp) tr
  cases c with
  | none =>
    cases hc : w.cache with
    | none =>
      have e : (clear w none).1 = w := by simp [clear, hc]
      rw [e]
      refine ⟨by rw [hu]; exact h.1, fun k r => ⟨fun hk => ?_, fun hk => absurd hk (known_lost (by simp) r tr)⟩⟩
      simp [cached, hc] at hk
    | some m =>
      have e : (clear w none).1 = { w with cache := some [] } := by simp [clear, hc]
      rw [e]
      refine ⟨⟨fun _ => hu.2 (h.1.1 (by simp [hc])), fun _ => rfl⟩, fun k r => ⟨fun hk => ?_, fun hk => absurd hk (known_lost (by simp) r tr)⟩⟩
      simp [cached, look] at hk
  | some c =>
    cases hc : w.cache with
    | none =>
      have e : (clear w (some c)).1 = w := by simp [clear, hc]
      rw [e]
      refine ⟨by rw [hu]; exact h.1, fun k r => ⟨fun hk => ?_, fun hk => ?_⟩⟩
      · simp [cached, hc] at hk
      · have := h.1.2 (hu.1 (known_inUse hk))
        simp [hc] at this
    | some m =>
      have hcache : ∀ k, cached (clear w (some c)).1 k = if k = c then none else cached w k := by
        intro k
        by_cases hs : (look m c).isSome = true
        · simp only [clear, hc, hs, if_true, cached]
          exact look_filter_ne m c k
        · simp only [clear, hc, hs, cached]
          by_cases hk : k = c
          · subst hk
            simp only [if_true]
            cases hx : look m k with
            | none => simp [hc, hx]
            | some r => rw [hx] at hs; simp at hs
          · simp [hk, hc]
      have hsome : (clear w (some c)).1.cache.isSome = true := by
        by_cases hs : (look m c).isSome = true
        · simp [clear, hc, hs]
        · simp [clear, hc, hs]
      refine ⟨⟨fun _ => hu.2 (h.1.1 (by simp [hc])), fun _ => hsome⟩, fun k r => ?_⟩
      rw [hcache k]
      by_cases hk : k = c
      · subst hk
        simp only [if_true]
        exact ⟨fun x => by simp at x, fun x => absurd x (known_lost (by simp) r tr)⟩
      · simp only [hk, if_false]
        rw [known_other (by simp) (by simp) (by simp [Ne.symm hk]) (by simp)]
        exact h.2 k r

theorem agrees_use {w : World} {tr : List Ev} (h : Agrees (w, tr)) (b : Bool) : Agrees (use w b, (if b then Ev.on else .off) :: tr) := by
  cases b with
  | true =>
    simp only [if_true]
    refine ⟨⟨fun _ => inUse_on tr, fun _ => ?_⟩, fun k r => ?_⟩
    · cases hc : w.cache <;> simp [use, hc]
    · rw [known_other (by simp) (by simp) (by simp) (by simp), ← h.2 k r]
      cases hc : w.cache with
      | none => simp [use, hc, cached, look]
      | some m => simp [use, hc]
  | false =>
    simp only [Bool.false_eq_true, if_false]
    refine ⟨⟨fun x => by simp [use] at x, fun x => absurd x (not_inUse_off tr)⟩, fun k r => ⟨fun x => by simp [use, cached] at x, fun x => absurd x (known_lost (by simp) r tr)⟩⟩

/-- What a lookup does, case by case. -/
theorem getRec_some (ads : Text) (net : Nat → Text → Except Err (List Rec)) (w : World) (c : Text) (ha : ads ≠ []) :
    getRec ads net w (some c) = match cached w c with
      | some r => (w, .ok r)
      | none => store { w with time := w.time + 1 } c (net w.time c) := by
  simp only [getRec, if_neg ha]
  cases cached w c <;> rfl

theorem store_time (w : World) (c : Text) (a : Except Err (List Rec)) : (store w c a).1.time = w.time := by
  cases a with
  | error e => rfl
  | ok l =>
    match l with
    | [] => rfl
    | [r] => simp only [store]; cases w.cache <;> rfl
    | _ :: _ :: _ => rfl

theorem cached_time (w : World) (n : Nat) (c : Text) : cached { w with time := n } c = cached w c := rfl

theorem agrees_lookup {w : World} {tr : List Ev} (ads : Text) (net : Nat → Text → Except Err (List Rec)) (h : Agrees (w, tr)) (c : Option Text) :
    Agrees ((getRec ads net w c).1, event ads net w (.lookup c) ++ tr) := by
  cases c with
  | none => exact h
  | some c =>
    by_cases ha : ads = []
    · have : getRec ads net w (some c) = (w, .error .data) := by simp [getRec, ha]
      simp only [event, this, if_true]
      exact h
    · rw [event, getRec_some ads net w c ha]
      cases hc : cached w c with
      | some r => simp only [if_true]; exact h
      | none =>
        simp only [store_time]
        rw [if_neg (by omega)]
        have key : (∃ r, net w.time c = .ok [r]) ∨ (request net w c = .failed c ∧ (store { w with time := w.time + 1 } c (net w.time c)).1 = { w with time := w.time + 1 }) := by
          cases hn : net w.time c with
          | error e => right; exact ⟨by simp [request, hn], rfl⟩
          | ok l =>
            match l with
            | [] => right; exact ⟨by simp [request, hn], rfl⟩
            | [r] => left; exact ⟨r, rfl⟩
            | _ :: _ :: _ => right; exact ⟨by simp [request, hn], rfl⟩
        rcases key with ⟨r, hr⟩ | ⟨hf, hst⟩
        · have hq : request net w c = .answered c r := by simp [request, hr]
          rw [hq, hr]
          refine ⟨?_, fun k r' => ?_⟩
          · rw [show ([Ev.answered c r] ++ tr) = Ev.answered c r :: tr from rfl, inUse_cons (by simp) (by simp), ← h.1]
            simp only [store]
            cases hw : w.cache <;> simp [hw]
          · rw [show ([Ev.answered c r] ++ tr) = Ev.answered c r :: tr from rfl]
            simp only [store]
            cases hw : w.cache with
            | none =>
              have hno : ¬ InUse tr := fun x => by have := h.1.2 x; simp [hw] at this
              simp only [cached, hw]
              constructor
              · intro x; simp at x
              · intro x
                exact absurd ((inUse_cons (by simp) (by simp) _).1 (known_inUse x)) hno
            | some m =>
              have hin : InUse tr := h.1.1 (by simp [hw])
              simp only [cached, look]
              by_cases hk : c = k
              · subst hk
                rw [if_pos rfl, known_answered]
                simp [hin]
              · rw [if_neg hk, look_filter_ne, if_neg (Ne.symm hk), known_other (by simp) (by simp) (by simp) (by simp [hk]), ← h.2 k r']
                simp [cached, hw]
        · rw [hf, hst]
          refine ⟨?_, fun k r' => ?_⟩
          · rw [show ([Ev.failed c] ++ tr) = Ev.failed c :: tr from rfl, inUse_cons (by simp) (by simp)]
            exact h.1
          · rw [show ([Ev.failed c] ++ tr) = Ev.failed c :: tr from rfl, known_other (by simp) (by simp) (by simp) (by simp)]
            exact h.2 k r'

theorem agrees_step (ads : Text) (net : Nat → Text → Except Err (List Rec)) {w : World} {tr : List Ev} (h : Agrees (w, tr)) (op : Op) :
    Agrees (step ads net w op, event ads net w op ++ tr) := by
  cases op with
  | lookup c => exact agrees_lookup ads net h c
  | clear c => exact agrees_clear h c
  | use b => exact agrees_use h b

theorem agrees_observe (ads : Text) (net : Nat → Text → Except Err (List Rec)) : ∀ (ops : List Op) (p : World × List Ev), Agrees p → Agrees (observe ads net p ops)
  | [], _, h => h
  | op :: ops, _, h => agrees_observe ads net ops _ (agrees_step ads net h op)

/-- The state is that of the history. -/
theorem observe_run (ads : Text) (net : Nat → Text → Except Err (List Rec)) : ∀ (ops : List Op) (p : World × List Ev),
    (observe ads net p ops).1 = run ads net p.1 ops
  | [], _ => rfl
  | _ :: ops, _ => observe_run ads net ops _

/-! ## Claims -/

/-- C157.  After any history, a lookup of a code whose record is known returns that record without a request. -/
theorem known_no_request (ads : Text) (net : Nat → Text → Except Err (List Rec)) (ops : List Op) (ha : ads ≠ []) {c : Text} {r : Rec}
    (hk : Known (observe ads net (start, []) ops).2 c r) :
    getRec ads net (run ads net start ops) (some c) = (run ads net start ops, .ok r) := by
  have h := agrees_observe ads net ops _ agrees_start
  have hc := (h.2 c r).2 hk
  rw [observe_run] at hc
  rw [getRec_some ads net _ c ha, hc]

/-- C157.  After any history, a lookup of a code whose record is not known makes one request, and what the server says is what is returned: the only record,
SourceDataError for several, IndexError for none. -/
theorem unknown_one_request (ads : Text) (net : Nat → Text → Except Err (List Rec)) (ops : List Op) (ha : ads ≠ []) {c : Text}
    (hk : ∀ r, ¬ Known (observe ads net (start, []) ops).2 c r) :
    let w := run ads net start ops
    (getRec ads net w (some c)).1.time = w.time + 1 ∧
    (∀ r, net w.time c = .ok [r] → (getRec ads net w (some c)).2 = .ok r) ∧
    (∀ e, net w.time c = .error e → (getRec ads net w (some c)).2 = .error e) ∧
    (net w.time c = .ok [] → (getRec ads net w (some c)).2 = .error .index) ∧
    (∀ r s l, net w.time c = .ok (r :: s :: l) → (getRec ads net w (some c)).2 = .error .data) := by
  intro w
  have h := agrees_observe ads net ops _ agrees_start
  have hc : cached w c = none := by
    cases hx : cached w c with
    | none => rfl
    | some r =>
      have := (h.2 c r).1 (by rw [observe_run]; exact hx)
      exact absurd this (hk r)
  rw [getRec_some ads net w c ha, hc]
  refine ⟨store_time _ _ _, fun r hr => ?_, fun e he => ?_, fun he => ?_, fun r s l he => ?_⟩
  · simp only [hr, store]
    cases w.cache <;> rfl
  · simp only [he, store]
  · simp only [he, store]
  · simp only [he, store]

/-- C157.  As long as nothing is cleared and the cache is not switched off, no code is fetched twice: after any history the server has given the record of a
code at most once. -/
theorem fetched_once (ads : Text) (net : Nat → Text → Except Err (List Rec)) (ops : List Op)
    (hops : ∀ op ∈ ops, op ≠ .use false ∧ ∀ c, op ≠ .clear c) (c : Text) :
    ∀ later earlier r r', (observe ads net (start, []) ops).2 = later ++ .answered c r :: earlier → .answered c r' ∉ later := by
  have main : ∀ (ops : List Op) (p : World × List Ev), (∀ op ∈ ops, op ≠ .use false ∧ ∀ c, op ≠ .clear c) → Agrees p →
      (∀ e ∈ p.2, e ≠ .off ∧ ∀ c, e ≠ .cleared c) →
      (∀ later earlier r r', p.2 = later ++ .answered c r :: earlier → .answered c r' ∉ later) →
      ∀ later earlier r r', (observe ads net p ops).2 = later ++ .answered c r :: earlier → .answered c r' ∉ later := by
    intro ops
    induction ops with
    | nil => intro p _ _ _ h; exact h
    | cons op ops ih =>
      intro p ho hp hev h
      refine ih _ (fun x hx => ho x (List.mem_cons_of_mem _ hx)) (agrees_step ads net hp op) ?_ ?_
      · intro e he
        rcases List.mem_append.1 he with he | he
        · cases op with
          | lookup k =>
            cases k with
            | none => simp [event] at he
            | some k =>
              simp only [event] at he
              split at he
              · simp at he
              · have : e = request net p.1 k := by simpa using he
                rw [this, request]
                split <;> simp
          | clear k => exact absurd rfl ((ho _ (by simp)).2 k)
          | use b =>
            cases b with
            | true => have : e = .on := by simpa [event] using he
                      rw [this]; simp
            | false => exact absurd rfl (ho _ (by simp)).1
        · exact hev e he
      · intro later earlier r r' heq
        by_cases hnil : event ads net p.1 op = []
        · rw [hnil] at heq
          exact h later earlier r r' heq
        · have hone : ∃ e, event ads net p.1 op = [e] ∧ (∀ s, e = .answered c s → op = .lookup (some c) ∧ (getRec ads net p.1 (some c)).1.time ≠ p.1.time) := by
            cases op with
            | lookup k =>
              cases k with
              | none => exact absurd rfl hnil
              | some k =>
                simp only [event] at hnil ⊢
                split at hnil
                · exact absurd rfl hnil
                · next ht =>
                  refine ⟨request net p.1 k, by rw [if_neg ht], fun s hs => ?_⟩
                  have : k = c := by
                    rw [request] at hs
                    split at hs
                    · simp only [Ev.answered.injEq] at hs; exact hs.1
                    · simp at hs
                  subst this
                  exact ⟨rfl, ht⟩
            | clear k => exact absurd rfl ((ho _ (by simp)).2 k)
            | use b => exact ⟨_, rfl, fun s hs => by cases b <;> simp at hs⟩
          obtain ⟨e, he, hans⟩ := hone
          rw [he] at heq
          cases later with
          | nil => simp
          | cons a later =>
            simp only [List.cons_append, List.nil_append, List.cons.injEq] at heq
            intro hmem
            rcases List.mem_cons.1 hmem with hm | hm
            · -- a new answer for a code that was answered before
              obtain ⟨hop, ht⟩ := hans r' (heq.1.trans hm.symm)
              have hlast : ∃ s, Known p.2 c s := by
                have hno := h later earlier r
                refine ⟨r, later, earlier, heq.2, ?_, ?_⟩
                · intro l er hl
                  have hx : Ev.off ∈ p.2 := by rw [heq.2, hl]; simp
                  exact absurd rfl (hev _ hx).1
                · intro x hx
                  have hx2 : x ∈ p.2 := by rw [heq.2]; simp [hx]
                  refine ⟨(hev x hx2).1, (hev x hx2).2 _, (hev x hx2).2 _, fun s hs => ?_⟩
                  exact hno s heq.2 (hs ▸ hx)
              obtain ⟨s, hs⟩ := hlast
              have hc := (hp.2 c s).2 hs
              apply ht
              by_cases ha : ads = []
              · simp [getRec, ha]
              · rw [getRec_some ads net p.1 c ha, hc]
            · exact h later earlier r r' heq.2 hm
  exact main ops _ hops agrees_start (by simp) (by intro l e r r' h; simp at h)

/-- C157.  Without a bibcode or an ADS address a lookup fails, and asks nobody. -/
theorem no_code (ads : Text) (net : Nat → Text → Except Err (List Rec)) (w : World) (c : Option Text) (h : c = none ∨ ads = []) :
    getRec ads net w c = (w, .error .data) := by
  cases c with
  | none => rfl
  | some c =>
    rcases h with h | h
    · simp at h
    · simp [getRec, h]

/-- C157.  Clearing works exactly while the cache is in use and, for a single code, holds it. -/
theorem clear_result (ads : Text) (net : Nat → Text → Except Err (List Rec)) (ops : List Op) :
    let p := observe ads net (start, []) ops
    (InUse p.2 → (clear p.1 none).2 = none) ∧ (¬ InUse p.2 → (clear p.1 none).2 = some .attribute) ∧
    (∀ c, (clear p.1 (some c)).2 = none ↔ ∃ r, Known p.2 c r) ∧
    (∀ c, ¬ InUse p.2 → (clear p.1 (some c)).2 = some .type) ∧
    (∀ c, InUse p.2 → (∀ r, ¬ Known p.2 c r) → (clear p.1 (some c)).2 = some .key) := by
  intro p
  have h : Agrees p := agrees_observe ads net ops _ agrees_start
  cases hc : p.1.cache with
  | none =>
    have hno : ¬ InUse p.2 := fun x => by have := h.1.2 x; simp [hc] at this
    refine ⟨fun x => absurd x hno, fun _ => by simp [clear, hc], fun c => ?_, fun c _ => by simp [clear, hc], fun c x => absurd x hno⟩
    simp only [clear, hc]
    constructor
    · intro x; simp at x
    · rintro ⟨r, hr⟩; exact absurd (known_inUse hr) hno
  | some m =>
    have hin : InUse p.2 := h.1.1 (by simp [hc])
    have hl : ∀ c, look m c = cached p.1 c := fun c => by simp [cached, hc]
    refine ⟨fun _ => by simp [clear, hc], fun x => absurd hin x, fun c => ?_, fun c x => absurd hin x, fun c _ hk => ?_⟩
    · simp only [clear, hc, hl]
      cases hx : cached p.1 c with
      | none =>
        simp only [Option.isSome_none, Bool.false_eq_true, if_false]
        constructor
        · intro x; simp at x
        · rintro ⟨r, hr⟩
          have := (h.2 c r).2 hr
          rw [hx] at this; simp at this
      | some r => simp only [Option.isSome_some, if_true, true_iff]; exact ⟨r, (h.2 c r).1 hx⟩
    · simp only [clear, hc, hl]
      cases hx : cached p.1 c with
      | none => simp
      | some r => exact absurd ((h.2 c r).1 hx) (hk r)

example : ∃ r : Rec, Known (observe "ads".toList (fun _ _ => .ok [⟨fun _ => []⟩]) (start, []) [.lookup (some "x".toList), .use true, .clear (some "y".toList)]).2 "x".toList r := by
  refine ⟨⟨fun _ => []⟩, [.cleared (some "y".toList), .on], [], rfl, inUse_nil, ?_⟩
  intro e he
  simp only [List.mem_cons, List.not_mem_nil, or_false] at he
  rcases he with rfl | rfl
  · refine ⟨by simp, by simp, ?_, by simp⟩
    intro x
    simp only [Ev.cleared.injEq, Option.some.injEq] at x
    exact absurd x (by decide)
  · simp

/-! ## Texts -/

theorem isPrefixOf_iff {a b : Text} : a.isPrefixOf b = true ↔ a <+: b := List.isPrefixOf_iff_prefix

theorem contains_iff (pat s : Text) : contains pat s = true ↔ pat <:+: s := by
  induction s with
  | nil => simp [contains]
  | cons c s ih =>
    rw [contains, Bool.or_eq_true, ih, isPrefixOf_iff, List.infix_cons_iff]

theorem removeN_absent (pat : Text) (n : Nat) (s : Text) (h : ¬ pat <:+: s) : removeN pat n s = s := by
  induction n generalizing s with
  | zero => rfl
  | succ n ih =>
    cases s with
    | nil => rfl
    | cons c s =>
      rw [removeN, if_neg]
      · rw [ih s (fun x => h (x.trans (List.suffix_cons c s).isInfix))]
      · rw [isPrefixOf_iff]
        exact fun x => h x.isInfix

/-- Nothing is taken out of a text without the pattern. -/
theorem remove_absent {pat s : Text} (h : ¬ pat <:+: s) : remove pat s = s := removeN_absent pat _ s h

theorem removeN_fuel (pat : Text) (hp : pat ≠ []) : ∀ (n m : Nat) (s : Text), s.length ≤ n → s.length ≤ m → removeN pat n s = removeN pat m s
  | 0, m, s, h, _ => by
    have : s = [] := List.length_eq_zero_iff.1 (by omega)
    subst this
    cases m <;> rfl
  | n + 1, 0, s, _, h => by
    have : s = [] := List.length_eq_zero_iff.1 (by omega)
    subst this
    rfl
  | n + 1, m + 1, [], _, _ => rfl
  | n + 1, m + 1, c :: s, h1, h2 => by
    have hl : 0 < pat.length := List.length_pos_iff.2 hp
    simp only [List.length_cons] at h1 h2
    rw [removeN, removeN]
    split
    · exact removeN_fuel pat hp n m _ (by rw [List.length_drop, List.length_cons]; omega) (by rw [List.length_drop, List.length_cons]; omega)
    · rw [removeN_fuel pat hp n m s (by omega) (by omega)]

/-- The pattern at the beginning goes. -/
theorem remove_prefix {pat : Text} (hp : pat ≠ []) (s : Text) : remove pat (pat ++ s) = remove pat s := by
  cases pat with
  | nil => exact absurd rfl hp
  | cons a p =>
    rw [remove, remove, List.cons_append, List.length_cons, removeN, if_pos (by rw [isPrefixOf_iff, ← List.cons_append]; exact List.prefix_append _ _)]
    have : (a :: (p ++ s)).drop (a :: p).length = s := by rw [← List.cons_append]; simp
    rw [this]
    exact removeN_fuel _ hp _ _ _ (by simp) (by simp)

/-- A character that does not begin the pattern stays. -/
theorem remove_cons {a c : Char} (p : Text) (h : a ≠ c) (s : Text) : remove (a :: p) (c :: s) = c :: remove (a :: p) s := by
  rw [remove, remove, List.length_cons, removeN, if_neg (by simp [List.isPrefixOf, h])]

theorem remove_before {a : Char} (p x s : Text) (h : a ∉ x) : remove (a :: p) (x ++ s) = x ++ remove (a :: p) s := by
  induction x with
  | nil => rfl
  | cons c x ih =>
    rw [List.cons_append, remove_cons p (fun e => h (by simp [e])), ih (fun e => h (by simp [e]))]
    rfl

/-! ## Where a location leads -/

/-- C158.  An arXiv identifier is looked up as such, with or without blanks and in any case. -/
theorem arxiv_url (ads loc x : Text) (h : lower loc = "arxiv:".toList ++ x) (hx : ¬ "arxiv".toList <:+: x) :
    urlOf ads loc = "http://".toList ++ ads ++ "/abs/arXiv:".toList ++ Source.strip x ++ "?data_type=PLAINTEXT".toList := by
  have h1 : contains "arxiv".toList (lower loc) = true := by
    rw [contains_iff, h]
    exact ⟨[], ":".toList ++ x, by rfl⟩
  have h2 : ¬ "arxiv:".toList <:+: x := fun e => hx ((List.IsPrefix.isInfix ⟨":".toList, rfl⟩).trans e)
  simp only [urlOf, h1, if_true]
  rw [h, remove_prefix (by decide), remove_absent h2, remove_absent hx]

/-- C158.  So are the old ones. -/
theorem astroph_url (ads loc x : Text) (h : lower loc = "astro-ph:".toList ++ x) (hx : ¬ "astro-ph".toList <:+: x) (ha : ¬ "arxiv".toList <:+: lower loc) :
    urlOf ads loc = "http://".toList ++ ads ++ "/abs/arXiv:".toList ++ Source.strip x ++ "?data_type=PLAINTEXT".toList := by
  have h0 : ¬ contains "arxiv".toList (lower loc) = true := by rw [contains_iff]; exact ha
  have h1 : contains "astro-ph".toList (lower loc) = true := by
    rw [contains_iff, h]
    exact ⟨[], ":".toList ++ x, by rfl⟩
  have h2 : ¬ "astro-ph:".toList <:+: x := fun e => hx ((List.IsPrefix.isInfix ⟨":".toList, rfl⟩).trans e)
  simp only [urlOf, h0, h1, if_true, if_false]
  rw [h, remove_prefix (by decide), remove_absent h2, remove_absent hx]
  rfl

/-- C158.  A DOI is looked up as it follows the colon: the blank of the documented form `doi: ...` stays in the address. -/
theorem doi_url (ads loc x : Text) (h : lower loc = "doi:".toList ++ x) (hx : ¬ "doi".toList <:+: x) (ha : ¬ "arxiv".toList <:+: lower loc)
    (hp : ¬ "astro-ph".toList <:+: lower loc) :
    urlOf ads loc = "http://".toList ++ ads ++ "/doi/".toList ++ x ++ "?data_type=PLAINTEXT".toList := by
  have h0 : ¬ contains "arxiv".toList (lower loc) = true := by rw [contains_iff]; exact ha
  have h0' : ¬ contains "astro-ph".toList (lower loc) = true := by rw [contains_iff]; exact hp
  have h1 : contains "doi".toList (lower loc) = true := by
    rw [contains_iff, h]
    exact ⟨[], ":".toList ++ x, by rfl⟩
  have h2 : ¬ "doi:".toList <:+: x := fun e => hx ((List.IsPrefix.isInfix ⟨":".toList, rfl⟩).trans e)
  simp only [urlOf, h0, h0', h1, if_true, if_false]
  rw [h, remove_prefix (by decide), remove_absent h2, remove_absent hx]
  rfl

/-- C158.  An address is asked as it is, any other text as a bibcode, if it contains none of the words. -/
theorem plain_url (ads loc : Text) (ha : ¬ "arxiv".toList <:+: lower loc) (hp : ¬ "astro-ph".toList <:+: lower loc) (hd : ¬ "doi".toList <:+: lower loc) :
    ("http".toList <:+: lower loc → urlOf ads loc = loc ++ "?data_type=PLAINTEXT".toList) ∧
    (¬ "http".toList <:+: lower loc → urlOf ads loc = "http://".toList ++ ads ++ "/abs/".toList ++ loc ++ "?data_type=PLAINTEXT".toList) := by
  have h0 : ¬ contains "arxiv".toList (lower loc) = true := by rw [contains_iff]; exact ha
  have h1 : ¬ contains "astro-ph".toList (lower loc) = true := by rw [contains_iff]; exact hp
  have h2 : ¬ contains "doi".toList (lower loc) = true := by rw [contains_iff]; exact hd
  constructor
  · intro h
    have h3 : contains "http".toList (lower loc) = true := by rw [contains_iff]; exact h
    unfold urlOf
    simp only [if_neg h0, if_neg h1, if_neg h2]
    first | rw [if_pos h3] | rw [if_neg h3]
  · intro h
    have h3 : ¬ contains "http".toList (lower loc) = true := by rw [contains_iff]; exact h
    unfold urlOf
    simp only [if_neg h0, if_neg h1, if_neg h2]
    first | rw [if_pos h3] | rw [if_neg h3]

/-- C158.  The bibcode of a preprint, such as `2010arXiv1001.1234X`, is not looked up: the word in it is cut out and the rest is asked as an
arXiv identifier. -/
theorem preprint_bibcode (ads loc a b : Text) (h : lower loc = a ++ "arxiv".toList ++ b) (ha : 'a' ∉ a) (hb : 'a' ∉ b) (hc : b.head? ≠ some ':') :
    urlOf ads loc = "http://".toList ++ ads ++ "/abs/arXiv:".toList ++ Source.strip (a ++ b) ++ "?data_type=PLAINTEXT".toList := by
  have h1 : contains "arxiv".toList (lower loc) = true := by rw [contains_iff, h]; exact ⟨a, b, rfl⟩
  have inf : ∀ {p x : Text}, 'a' ∉ x → ¬ ('a' :: p) <:+: x := fun hx e => hx (e.subset (by simp))
  have hbig : remove "arxiv:".toList ("arxiv".toList ++ b) = "arxiv".toList ++ b := by
    apply remove_absent
    intro e
    have : "arxiv:".toList <+: "arxiv".toList ++ b ∨ "arxiv:".toList <:+: "rxiv".toList ++ b := List.infix_cons_iff.1 e
    rcases this with h' | h'
    · obtain ⟨t, ht⟩ := h'
      have : ":".toList ++ t = b := by
        have : "arxiv".toList ++ (":".toList ++ t) = "arxiv".toList ++ b := ht
        exact List.append_cancel_left this
      exact hc (by rw [← this]; rfl)
    · refine inf (p := "rxiv:".toList) (x := "rxiv".toList ++ b) ?_ h'
      simp [hb]
  simp only [urlOf, h1, if_true]
  rw [h, show a ++ "arxiv".toList ++ b = a ++ ("arxiv".toList ++ b) from List.append_assoc _ _ _]
  have e1 : remove "arxiv:".toList (a ++ ("arxiv".toList ++ b)) = a ++ ("arxiv".toList ++ b) := by
    rw [show "arxiv:".toList = 'a' :: "rxiv:".toList from rfl, remove_before _ a _ ha, ← show "arxiv:".toList = 'a' :: "rxiv:".toList from rfl, hbig]
  have e2 : remove "arxiv".toList (a ++ ("arxiv".toList ++ b)) = a ++ b := by
    rw [show "arxiv".toList = 'a' :: "rxiv".toList from rfl, remove_before _ a _ ha, remove_prefix (by decide)]
    exact congrArg _ (remove_absent (inf hb))
  rw [e1, e2]

example : urlOf "ads".toList "2010arXiv1001.1234B".toList = "http://ads/abs/arXiv:20101001.1234b?data_type=PLAINTEXT".toList := by decide

/-! ## The code that is kept -/

/-- C158.  The code on a page is what the first line with the mark says. -/
theorem code_exact (ls : List Text) (c : Text) : codeIn ls = some c ↔
    ∃ before l after, ls = before ++ l :: after ∧ (∀ x ∈ before, ¬ mark <:+: x) ∧ mark <:+: l ∧ c = Source.strip (remove mark l) := by
  induction ls with
  | nil => simp [codeIn]
  | cons l ls ih =>
    rw [codeIn]
    by_cases h : mark <:+: l
    · rw [if_pos ((contains_iff _ _).2 h)]
      constructor
      · intro e
        exact ⟨[], l, ls, rfl, by simp, h, by simpa using e.symm⟩
      · rintro ⟨before, l', after, he, hb, hl, rfl⟩
        cases before with
        | nil => simp at he; rw [he.1]
        | cons x before =>
          simp only [List.cons_append, List.cons.injEq] at he
          exact absurd h (he.1 ▸ hb x (by simp))
    · rw [if_neg (by rw [contains_iff]; exact h), ih]
      constructor
      · rintro ⟨before, l', after, he, hb, hl, hc⟩
        refine ⟨l :: before, l', after, by rw [he]; rfl, ?_, hl, hc⟩
        intro x hx
        rcases List.mem_cons.1 hx with rfl | hx
        · exact h
        · exact hb x hx
      · rintro ⟨before, l', after, he, hb, hl, hc⟩
        cases before with
        | nil => simp at he; exact absurd hl (he.1 ▸ h)
        | cons x before =>
          simp only [List.cons_append, List.cons.injEq] at he
          exact ⟨before, l', after, he.2, fun y hy => hb y (by simp [hy]), hl, hc⟩

/-- C158.  A line `Bibliographic Code: xyz` gives `xyz`. -/
theorem code_line (x : Text) (hx : ¬ mark <:+: x) (ls : List Text) : codeIn ((mark ++ x) :: ls) = some (Source.strip x) := by
  rw [codeIn, if_pos ((contains_iff _ _).2 ⟨[], x, by simp⟩), remove_prefix (by decide), remove_absent hx]

/-- C158.  None and the empty text unset the code; anything but a text is a TypeError; otherwise the code becomes the one the page of the location gives (or
the location itself, if there is no ADS address), or the call fails and the code stays. -/
theorem bibcode_exact (ads : Text) (web : Text → Page) (old : Option Text) :
    setBibcode ads web old .none = (none, none) ∧ setBibcode ads web old (.str []) = (none, none) ∧ setBibcode ads web old .other = (old, some .type) ∧
    ∀ v, v ≠ [] →
      (ads = [] → setBibcode ads web old (.str v) = (some v, none)) ∧
      (ads ≠ [] → ∀ ls c, web (urlOf ads v) = .lines ls → codeIn ls = some c → setBibcode ads web old (.str v) = (some c, none)) ∧
      (ads ≠ [] → (∀ ls, web (urlOf ads v) = .lines ls → codeIn ls = none) → ∃ e, setBibcode ads web old (.str v) = (old, some e)) := by
  refine ⟨rfl, by simp [setBibcode], rfl, fun v hv => ⟨fun ha => ?_, fun ha ls c hl hc => ?_, fun ha hn => ?_⟩⟩
  · simp [setBibcode, hv, findCode, ha]
  · simp [setBibcode, hv, findCode, ha, hl, hc]
  · cases hw : web (urlOf ads v) with
    | http => exact ⟨.data, by simp [setBibcode, hv, findCode, ha, hw]⟩
    | timeout => exact ⟨.data, by simp [setBibcode, hv, findCode, ha, hw]⟩
    | other => exact ⟨.url, by simp [setBibcode, hv, findCode, ha, hw]⟩
    | lines ls => exact ⟨.data, by simp [setBibcode, hv, findCode, ha, hw, hn ls hw]⟩

/-- C158.  Title, abstract and date are read exactly when the record has one element of the kind, with a text. -/
theorem only_exact (r : Rec) (tag : String) (t : Text) : (only r tag = .ok t ↔ r.elements tag = [some t]) ∧
    ((r.elements tag).length ≠ 1 → only r tag = .error .data) := by
  constructor
  · rw [only]
    split
    · next u h => rw [h]; simp
    · next h => rw [h]; simp
    · next h1 _ => simp only [reduceCtorEq, false_iff]; exact fun e => h1 t e
  · intro h
    rw [only]
    split
    · next u h' => rw [h'] at h; simp at h
    · next h' => rw [h'] at h; simp at h
    · rfl

/-- C158.  The authors are the texts of the author elements, in order. -/
theorem authors_exact (l : List (Option Text)) (ts : List Text) : texts l = .ok ts ↔ l = ts.map some := by
  induction l generalizing ts with
  | nil => cases ts <;> simp [texts]
  | cons x l ih =>
    cases x with
    | none => cases ts <;> simp [texts]
    | some t =>
      cases hx : texts l with
      | error e =>
        constructor
        · intro h; simp [texts, hx] at h
        · intro h
          cases ts with
          | nil => simp at h
          | cons u us =>
            simp only [List.map_cons, List.cons.injEq] at h
            have := (ih us).2 h.2
            rw [hx] at this; simp at this
      | ok us =>
        have hl := (ih us).1 hx
        cases ts with
        | nil => simp [texts, hx]
        | cons u vs =>
          simp only [texts, hx, List.map_cons, List.cons.injEq, Option.some.injEq, Except.ok.injEq]
          constructor
          · rintro ⟨rfl, rfl⟩; exact ⟨rfl, hl⟩
          · rintro ⟨rfl, h⟩
            refine ⟨rfl, ?_⟩
            have := (ih vs).2 h
            rw [hx] at this
            simpa using this

end Verif.AdsCache

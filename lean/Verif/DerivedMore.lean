import Verif.DerivedProps

/-!
# Failure handling of derived values (C66)
-/

namespace Verif.Derived

/-- What a read may raise in a forgiving mode: only what the handler does not catch. -/
def Forgiven (r : Except Exc PV) (loop : Prop) : Prop :=
  (∃ v, r = .ok v) ∨ r = .error .other ∨ r = .error .fuel ∨ (loop ∧ r = .error .attribute)

theorem handle_forgives (c : Config) (mode : Mode) (hm : mode ≠ .raise) (st : State) (d : Nat) (e : Exc) :
    Forgiven (handle c mode st d e).2 (e = .cycle ∧ c.hasNode d = false) := by
  unfold handle Forgiven
  by_cases h : e = .cycle ∧ c.hasNode d = false
  · rw [if_pos h]; simp [h]
  · rw [if_neg h]
    cases e <;> cases mode <;> simp_all [Exc.caught]

/-- A step of the evaluation never passes a cycle exception on. -/
theorem value_forgives (c : Config) (mode : Mode) (hm : mode ≠ .raise) (fuel : Nat) : ∀ S st d,
    Forgiven (value c mode fuel S st d).2 (d ∈ S ∧ c.hasNode d = false) := by
  induction fuel with
  | zero => intro S st d; simp [value, Forgiven]
  | succ fuel ih =>
    intro S st d
    have hcall : ∀ st g, (call (value c mode fuel (d :: S)) st g).2 ≠ .error .cycle := by
      intro st g
      unfold call
      split
      · simp
      · simp
      · intro h
        rcases ih (d :: S) st _ with ⟨v, h'⟩ | h' | h' | ⟨_, h'⟩ <;> rw [h'] at h <;> simp at h
    have hdep : ∀ st g, (dep (value c mode fuel (d :: S)) st g).2 ≠ .error .cycle := by
      intro st g
      unfold dep
      split
      · exact hcall _ _
      · rename_i st1 _
        have h1 := hcall st1 g
        split
        · rename_i st2 e heq; rw [heq] at h1; simpa using h1
        · exact hcall _ _
    have hdeps : ∀ gs st, (depsList (value c mode fuel (d :: S)) st gs).2 ≠ .error .cycle := by
      intro gs
      induction gs with
      | nil => intro st; simp [depsList]
      | cons g gs ihg =>
        intro st
        have h1 := hdep st g
        unfold depsList
        split
        · rename_i st1 e heq; rw [heq] at h1; simpa using h1
        · rename_i st1 v heq
          have h2 := ihg st1
          split
          · rename_i st2 e heq2; rw [heq2] at h2; simpa using h2
          · simp
    have hpop : ∀ ls st i, (populate d st i ls).2 ≠ .error .cycle := by
      intro ls
      induction ls with
      | nil => intro st i; simp [populate]
      | cons l ls ihl =>
        intro st i
        unfold populate
        split
        · exact ihl _ _
        · split
          · simp
          · exact ihl _ _
    have hlink : (link c st d).2 ≠ .error .cycle := by
      unfold link
      split
      · split
        · have := hpop (c.links d) st 0
          split
          · rename_i st1 e heq; rw [heq] at this; simpa using this
          · simp
        · simp
      · simp
    unfold value
    split
    · exact Or.inl ⟨_, rfl⟩
    · unfold compute
      split
      · rename_i hS
        have := handle_forgives c mode hm st d .cycle
        simpa [Forgiven, hS] using this
      · rename_i hS
        have hfin : ∀ st e, e ≠ .cycle → Forgiven (handle c mode st d e).2 (d ∈ S ∧ c.hasNode d = false) := by
          intro st e he
          have := handle_forgives c mode hm st d e
          simpa [Forgiven, hS, he] using this
        split
        · rename_i st1 e heq
          exact hfin _ _ (by intro h; apply hlink; rw [heq, h])
        · rename_i st1 gs heq
          have h2 := hdeps gs st1
          split
          · rename_i st2 e heq2
            exact hfin _ _ (by intro h; apply h2; rw [heq2, h])
          · split
            · rename_i e _
              exact hfin _ _ (by cases e <;> simp [FnExc.toExc])
            · exact Or.inl ⟨_, rfl⟩

/-- An exception that the functions do not raise does not come out of a read. -/
theorem value_not_other (c : Config) (mode : Mode) (hfn : ∀ d vs, c.fn d vs ≠ .error .unlisted) (fuel : Nat) :
    ∀ S st d, (value c mode fuel S st d).2 ≠ .error .other := by
  induction fuel with
  | zero => intro S st d; simp [value]
  | succ fuel ih =>
    intro S st d
    have hcall : ∀ st g, (call (value c mode fuel (d :: S)) st g).2 ≠ .error .other := by
      intro st g
      unfold call
      split
      · simp
      · simp
      · exact ih _ _ _
    have hdep : ∀ st g, (dep (value c mode fuel (d :: S)) st g).2 ≠ .error .other := by
      intro st g
      unfold dep
      split
      · exact hcall _ _
      · rename_i st1 _
        have h1 := hcall st1 g
        split
        · rename_i st2 e heq; rw [heq] at h1; simpa using h1
        · exact hcall _ _
    have hdeps : ∀ gs st, (depsList (value c mode fuel (d :: S)) st gs).2 ≠ .error .other := by
      intro gs
      induction gs with
      | nil => intro st; simp [depsList]
      | cons g gs ihg =>
        intro st
        have h1 := hdep st g
        unfold depsList
        split
        · rename_i st1 e heq; rw [heq] at h1; simpa using h1
        · rename_i st1 v heq
          have h2 := ihg st1
          split
          · rename_i st2 e heq2; rw [heq2] at h2; simpa using h2
          · simp
    have hpop : ∀ ls st i, (populate d st i ls).2 ≠ .error .other := by
      intro ls
      induction ls with
      | nil => intro st i; simp [populate]
      | cons l ls ihl =>
        intro st i
        unfold populate
        split
        · exact ihl _ _
        · split
          · simp
          · exact ihl _ _
    have hlink : (link c st d).2 ≠ .error .other := by
      unfold link
      split
      · split
        · have := hpop (c.links d) st 0
          split
          · rename_i st1 e heq; rw [heq] at this; simpa using this
          · simp
        · simp
      · simp
    have hfin : ∀ st e, e ≠ .other → (handle c mode st d e).2 ≠ .error .other := by
      intro st e he
      unfold handle
      split
      · simp
      · split
        · cases mode <;> simp [he]
        · simp [he]
    unfold value
    split
    · simp
    · unfold compute
      split
      · exact hfin _ _ (by simp)
      · split
        · rename_i st1 e heq
          exact hfin _ _ (by intro h; apply hlink; rw [heq, h])
        · rename_i st1 gs heq
          have h2 := hdeps gs st1
          split
          · rename_i st2 e heq2
            exact hfin _ _ (by intro h; apply h2; rw [heq2, h])
          · rename_i vs _
            split
            · rename_i e hf
              refine hfin _ _ ?_
              cases e with
              | listed => simp [FnExc.toExc]
              | unlisted => exact absurd hf (hfn _ _)
            · simp

/-- **C66**: with `failedvalueaction` 'skip' or 'ignore', reading a derived value never raises, after any history:
not for missing or empty fields, links that lead nowhere, dependency cycles or exceptions of its function (provided the
functions raise only the exceptions that are handled). -/
theorem forgiving_read_succeeds (c : Config) (mode : Mode) (hm : mode ≠ .raise)
    (hfn : ∀ d vs, c.fn d vs ≠ .error .unlisted) (ops : List Op) (d : Nat) (hd : d < c.n) :
    ∃ v, (read c mode (run c mode (init c) ops) d).2 = .ok v := by
  rcases value_forgives c mode hm (c.n + 1) [] (run c mode (init c) ops) d with h | h | h | ⟨h, _⟩
  · exact h
  · exact absurd h (value_not_other c mode hfn _ _ _ _)
  · exact absurd h (read_terminates c mode ops d hd)
  · simp at h

theorem handle_state (c : Config) (mode : Mode) (st : State) (d : Nat) (e : Exc) (v : PV)
    (h : (handle c mode st d e).2 = .ok v) :
    v = none ∧ (handle c mode st d e).1.cache d = none ∧
    (mode = .ignore ∧ (handle c mode st d e).1.valid d = true ∨
      mode = .skip ∧ (handle c mode st d e).1.valid d = false) := by
  unfold handle at h ⊢
  split at h
  · simp at h
  · rename_i h0
    rw [if_neg h0]
    split at h
    · rename_i h1
      rw [if_pos h1]
      cases mode <;> simp_all [upd]
    · simp at h

/-- **C66**: what a read leaves behind, in every mode and state: the value returned is cached and marked valid, or it is
None, the value is marked invalid (so the next read tries again) and the mode is 'skip'. -/
theorem read_caches (c : Config) (mode : Mode) (st : State) (d : Nat) (v : PV)
    (h : (read c mode st d).2 = .ok v) :
    (read c mode st d).1.cache d = v ∧
    ((read c mode st d).1.valid d = true ∨ mode = .skip ∧ v = none ∧ (read c mode st d).1.valid d = false) := by
  have key : ∀ (x : State × Except Exc PV), (read c mode st d) = x → x.2 = .ok v →
      x.1.cache d = v ∧ (x.1.valid d = true ∨ mode = .skip ∧ v = none ∧ x.1.valid d = false) := by
    intro x hx hv
    have hh : ∀ st e, handle c mode st d e = x → x.1.cache d = v ∧ (x.1.valid d = true ∨ mode = .skip ∧ v = none ∧ x.1.valid d = false) := by
      intro st e he
      have := handle_state c mode st d e v (by rw [he]; exact hv)
      rw [he] at this
      obtain ⟨h1, h2, h3⟩ := this
      refine ⟨by rw [h2, h1], ?_⟩
      rcases h3 with ⟨_, h3⟩ | ⟨h4, h3⟩
      · exact Or.inl h3
      · exact Or.inr ⟨h4, h1, h3⟩
    unfold read value at hx
    split at hx
    · rename_i hval
      subst hx
      simp only [Except.ok.injEq] at hv
      exact ⟨hv, Or.inl hval⟩
    · unfold compute at hx
      split at hx
      · exact hh _ _ hx
      · split at hx
        · exact hh _ _ hx
        · split at hx
          · exact hh _ _ hx
          · split at hx
            · exact hh _ _ hx
            · subst hx
              simp only [Except.ok.injEq] at hv
              subst hv
              simp [upd]
  exact key _ rfl h

/-- **C66**: in 'ignore' mode a failed value is not tried again: the next read returns the same without any evaluation,
until a notification of a dependency invalidates it. -/
theorem ignored_failure_is_kept (c : Config) (st : State) (d : Nat) (v : PV)
    (h : (read c .ignore st d).2 = .ok v) :
    read c .ignore (read c .ignore st d).1 d = ((read c .ignore st d).1, .ok v) := by
  obtain ⟨h1, h2⟩ := read_caches c .ignore st d v h
  rcases h2 with h2 | ⟨h2, _⟩
  · generalize (read c .ignore st d).1 = st' at *
    unfold read value
    rw [if_pos h2, h1]
  · simp at h2

/-- Instances: a function that always fails, a cycle of two values. -/
def failCfg : Config where
  n := 3
  links := fun d => if d = 0 then [.field 5] else if d = 1 then [.field 2] else [.field 1]
  fn := fun d vs => if d = 0 then .error .listed else .ok vs.head?.join
  hasNode := fun _ => true

def failSt : State := run failCfg .skip (init failCfg)
  [.assign 5 [.base (some 7)] true, .assign 1 [.derived 1] true, .assign 2 [.derived 2] true]

example : (read failCfg .skip failSt 0).2 = .ok none ∧ (read failCfg .skip failSt 0).1.valid 0 = false ∧
    (read failCfg .ignore failSt 0).1.valid 0 = true ∧ (read failCfg .raise failSt 0).2 = .error .func ∧
    (read failCfg .raise failSt 1).2 = .error .cycle ∧ (read failCfg .skip failSt 1).2 = .ok none := by decide

end Verif.Derived

import Verif.FieldProps
import Verif.PyListLemmas

/-!
# More about fields: derived values live in one field, the 'derivedN' keys (C65)
-/

namespace Verif.Field

open Verif

/-- The `FieldValue` object a call tries to put into the field. -/
def Op.offers : Op → Option Val
  | .setitem _ (.obj v) => some v
  | .insert _ v => some v
  | .append v => some v
  | .setCurrObj v => some v
  | _ => none

/-- **C65**, rejection: whichever call is used, a derived value that already has a field (this one or another) is refused
and the field is unchanged. -/
theorem owned_derived_rejected (f : State) (op : Op) (v : Val) (ho : op.offers = some v) (hd : v.derived = true)
    (hown : v.oid ∈ f.owned) : ∃ e, step f op = (f, .error e) := by
  have hconv : ∀ c, ∃ e, conv f v c = .error e := by
    intro c
    unfold conv
    split
    · exact ⟨_, rfl⟩
    · split
      · exact ⟨_, rfl⟩
      · simp [hd, hown]
  have hrep : ∀ p z, ∃ e, replaceAt f p z v = (f, .error e) := by
    intro p z
    unfold replaceAt
    split
    · exact ⟨_, rfl⟩
    · obtain ⟨e, he⟩ := hconv (.expect (by assumption : Val).src)
      rw [he]; exact ⟨_, rfl⟩
  have hins : ∀ k, ∃ e, insert f k v = (f, .error e) := by
    intro k
    obtain ⟨e, he⟩ := hconv (insertCheck k)
    unfold insert
    rw [he]; exact ⟨_, rfl⟩
  cases op with
  | setitem k inp =>
    cases inp with
    | raw => simp [Op.offers] at ho
    | obj w =>
      simp only [Op.offers, Option.some.injEq] at ho
      subst ho
      have hset : ∃ e, setByKey f k (.obj w) = (f, .error e) := by
        unfold setByKey
        split
        · exact hrep _ _
        · obtain ⟨e, he⟩ := hconv .present
          simp only [In.wrapped, appendNew, he]; exact ⟨_, rfl⟩
      cases k with
      | int i =>
        simp only [step, setitem]
        split
        · exact ⟨_, rfl⟩
        · exact hrep _ _
      | source s => exact hset
      | str s => exact hset
      | derived n => exact hset
  | delitem k => simp [Op.offers] at ho
  | insert k w =>
    simp only [Op.offers, Option.some.injEq] at ho
    subst ho
    exact hins k
  | append w =>
    simp only [Op.offers, Option.some.injEq] at ho
    subst ho
    exact hins _
  | setCurrKey k => simp [Op.offers] at ho
  | setCurrObj w =>
    simp only [Op.offers, Option.some.injEq] at ho
    subst ho
    obtain ⟨e, he⟩ := hconv .off
    simp only [step, setCurrObj, he]; exact ⟨_, rfl⟩

theorem conv_owned {f f1 : State} {v v' : Val} {c : Check} (h : conv f v c = .ok (f1, v')) :
    f.owned ⊆ f1.owned ∧ (v.derived = true → v'.oid ∈ f1.owned) ∧ v'.oid = v.oid ∧ v'.derived = v.derived := by
  have hco : (coerce v c).oid = v.oid ∧ (coerce v c).derived = v.derived := by
    unfold coerce
    split
    · exact ⟨rfl, rfl⟩
    · split <;> exact ⟨rfl, rfl⟩
  unfold conv at h
  split at h
  · simp at h
  · split at h
    · simp at h
    · split at h
      · split at h
        · simp at h
        · simp only [Except.ok.injEq, Prod.mk.injEq] at h
          obtain ⟨rfl, rfl⟩ := h
          exact ⟨fun x hx => by simp [hx], fun _ => by simp [hco.1], hco⟩
      · rename_i hd
        simp only [Except.ok.injEq, Prod.mk.injEq] at h
        obtain ⟨rfl, rfl⟩ := h
        exact ⟨fun x hx => hx, fun h' => absurd h' hd, hco⟩

/-- **C65**, ownership: after any history every derived value in the field counts as owned, so that (by
`owned_derived_rejected`) no call can put it in again or into another field. -/
theorem derived_values_owned (ops : List Op) : ∀ v ∈ (run init ops).vals, v.derived = true → v.oid ∈ (run init ops).owned := by
  have hset : ∀ (l : List Val) p x v, v ∈ l.set p x → v ∈ l ∨ v = x := fun l p x v h => List.mem_or_eq_of_mem_set h
  have hdel : ∀ (f : State) k, (∀ v ∈ f.vals, v.derived = true → v.oid ∈ f.owned) →
      ∀ v ∈ (delitem f k).1.vals, v.derived = true → v.oid ∈ (delitem f k).1.owned := by
    intro f k h v hv hd
    unfold delitem at hv ⊢
    split at hv
    · exact h v hv hd
    · dsimp only at hv ⊢
      have : ∀ b : Bool, (if b then notify f f.vals[0]? f.vals[1]? else f).vals = f.vals ∧
          (if b then notify f f.vals[0]? f.vals[1]? else f).owned = f.owned := by
        intro b; cases b <;> simp [notify]
      rw [(this _).1] at hv
      rw [(this _).2]
      exact h v ((List.eraseIdx_sublist _ _).subset hv) hd
  have hins : ∀ (f : State) i w, (∀ v ∈ f.vals, v.derived = true → v.oid ∈ f.owned) → (w.derived = true → w.oid ∈ f.owned) →
      ∀ v ∈ (insertAt f i w).1.vals, v.derived = true → v.oid ∈ (insertAt f i w).1.owned := by
    intro f i w h hw v hv hd
    have ho : (insertAt f i w).1.owned = f.owned := by
      unfold insertAt
      dsimp only
      split <;> rfl
    rw [ho]
    rw [insertAt_vals] at hv
    obtain ⟨a, b, h1, h2⟩ := insert_split f.vals i w
    rw [h2] at hv
    rcases List.mem_append.mp hv with hv | hv
    · exact h v (by rw [h1]; simp [hv]) hd
    · rcases List.mem_cons.mp hv with rfl | hv
      · exact hw hd
      · exact h v (by rw [h1]; simp [hv]) hd
  have hrep : ∀ (f : State) p z w, (∀ v ∈ f.vals, v.derived = true → v.oid ∈ f.owned) →
      ∀ v ∈ (replaceAt f p z w).1.vals, v.derived = true → v.oid ∈ (replaceAt f p z w).1.owned := by
    intro f p z w h
    unfold replaceAt
    split
    · exact h
    · split
      · exact h
      · rename_i f1 v' hc
        obtain ⟨h1, h2, h3, h4⟩ := conv_owned hc
        have hv1 : f1.vals = f.vals := by
          unfold conv at hc
          split at hc
          · simp at hc
          · split at hc
            · simp at hc
            · split at hc
              · split at hc
                · simp at hc
                · simp only [Except.ok.injEq, Prod.mk.injEq] at hc; rw [← hc.1]
              · simp only [Except.ok.injEq, Prod.mk.injEq] at hc; rw [← hc.1]
        intro v hv hd
        have hz : ∀ b : Bool, (if b then notify f1 f1.vals[0]? (some v') else f1).vals = f1.vals ∧
            (if b then notify f1 f1.vals[0]? (some v') else f1).owned = f1.owned := by
          intro b; cases b <;> simp [notify]
        dsimp only at hv ⊢
        rw [(hz _).1] at hv
        rw [(hz _).2]
        rcases hset _ _ _ _ hv with hv | rfl
        · exact h1 (h v (by rw [← hv1]; exact hv) hd)
        · exact h2 (by rw [← h4]; exact hd)
  have hconvv : ∀ {f f1 : State} {v v' : Val} {c : Check}, conv f v c = .ok (f1, v') → f1.vals = f.vals := by
    intro f f1 v v' c hc
    unfold conv at hc
    split at hc
    · simp at hc
    · split at hc
      · simp at hc
      · split at hc
        · split at hc
          · simp at hc
          · simp only [Except.ok.injEq, Prod.mk.injEq] at hc; rw [← hc.1]
        · simp only [Except.ok.injEq, Prod.mk.injEq] at hc; rw [← hc.1]
  have hinsert : ∀ (f : State) k w, (∀ v ∈ f.vals, v.derived = true → v.oid ∈ f.owned) →
      ∀ v ∈ (insert f k w).1.vals, v.derived = true → v.oid ∈ (insert f k w).1.owned := by
    intro f k w h
    unfold insert
    split
    · exact h
    · rename_i f1 v' hc
      obtain ⟨h1, h2, h3, h4⟩ := conv_owned hc
      have hv1 := hconvv hc
      have hf1 : ∀ v ∈ f1.vals, v.derived = true → v.oid ∈ f1.owned := by
        intro v hv hd
        rw [hv1] at hv
        exact h1 (h v hv hd)
      split
      · exact hins _ _ _ hf1 (fun hd => h2 (by rw [← h4]; exact hd))
      · split
        · exact hf1
        · exact hins _ _ _ hf1 (fun hd => h2 (by rw [← h4]; exact hd))
  have hstep : ∀ (f : State) op, (∀ v ∈ f.vals, v.derived = true → v.oid ∈ f.owned) →
      ∀ v ∈ (step f op).1.vals, v.derived = true → v.oid ∈ (step f op).1.owned := by
    intro f op h
    have happ : ∀ w, ∀ v ∈ (appendNew f w).1.vals, v.derived = true → v.oid ∈ (appendNew f w).1.owned := by
      intro w
      unfold appendNew
      split
      · exact h
      · rename_i f1 v' hc
        obtain ⟨h1, h2, h3, h4⟩ := conv_owned hc
        intro v hv hd
        dsimp only at hv ⊢
        rcases List.mem_append.mp hv with hv | hv
        · rw [hconvv hc] at hv
          exact h1 (h v hv hd)
        · rw [List.mem_singleton.mp hv] at hd ⊢
          exact h2 (by rw [← h4]; exact hd)
    cases op with
    | setitem k inp =>
      have hk : ∀ v ∈ (setByKey f k inp).1.vals, v.derived = true → v.oid ∈ (setByKey f k inp).1.owned := by
        unfold setByKey
        split
        · exact hrep _ _ _ _ h
        · exact happ _
      cases k with
      | int i =>
        simp only [step, setitem]
        split
        · exact h
        · exact hrep _ _ _ _ h
      | source s => exact hk
      | str s => exact hk
      | derived n => exact hk
    | delitem k => exact hdel f k h
    | insert k w => exact hinsert f k w h
    | append w => exact hinsert f _ w h
    | setCurrKey k =>
      simp only [step, setCurrKey]
      split
      · exact h
      · split
        · exact h
        · rename_i p v hp
          intro w hw hd
          dsimp only [notify] at hw ⊢
          rcases List.mem_cons.mp hw with rfl | hw
          · exact h _ (List.mem_of_getElem? hp) hd
          · exact h w ((List.eraseIdx_sublist _ _).subset hw) hd
    | setCurrObj w =>
      simp only [step, setCurrObj]
      split
      · exact h
      · rename_i f1 v' hc
        obtain ⟨h1, h2, h3, h4⟩ := conv_owned hc
        have hf1 : ∀ v ∈ f1.vals, v.derived = true → v.oid ∈ f1.owned := by
          intro v hv hd
          rw [hconvv hc] at hv
          exact h1 (h v hv hd)
        intro v hv hd
        dsimp only [notify] at hv ⊢
        split at hv
        · rename_i hany
          rw [if_pos hany]
          have hown : f1.owned ⊆ (delitem f1 (.source v'.src)).1.owned := by
            unfold delitem
            split
            · exact fun x hx => hx
            · dsimp only
              split <;> exact fun x hx => hx
          rcases List.mem_cons.mp hv with rfl | hv
          · exact hown (h2 (by rw [← h4]; exact hd))
          · exact hdel f1 _ hf1 v hv hd
        · rename_i hany
          rw [if_neg hany]
          rcases List.mem_cons.mp hv with rfl | hv
          · exact h2 (by rw [← h4]; exact hd)
          · exact hf1 v hv hd
  have hrun : ∀ (ops : List Op) f, (∀ v ∈ f.vals, v.derived = true → v.oid ∈ f.owned) →
      ∀ v ∈ (run f ops).vals, v.derived = true → v.oid ∈ (run f ops).owned := by
    intro ops
    induction ops with
    | nil => intro f h; exact h
    | cons op ops ih => intro f h; exact ih _ (hstep f op h)
  exact hrun ops init (by simp [init])

/-- **C65**, lookup: `field['derivedN']` is the `N`th derived value of the field in its order (objects being
distinct), IndexError if there are not so many. -/
theorem derivedN_lookup (f : State) (hn : (f.vals.map Val.oid).Nodup) (n : Nat) :
    getitem f (.derived n) = match (f.vals.filter (fun v => v.derived))[n]? with
      | some v => .ok v
      | none => .error .indexError := by
  unfold getitem find
  dsimp only
  rw [Py.get?_nat]
  cases hg : (f.vals.filter (fun v => v.derived))[n]? with
  | none =>
    have : ((f.vals.filter (fun v => v.derived)).length : Int) ≤ n := by
      have := List.getElem?_eq_none_iff.mp hg; omega
    rw [if_pos this]
  | some v =>
    have hlt : ¬ ((f.vals.filter (fun v => v.derived)).length : Int) ≤ n := by
      have := (List.getElem?_eq_some_iff.mp hg).1; omega
    rw [if_neg hlt]
    have hv : v ∈ f.vals := (List.mem_filter.mp (List.mem_of_getElem? hg)).1
    dsimp only
    cases hi : f.vals.findIdx? (fun w => w.oid = v.oid) with
    | none =>
      have := List.findIdx?_eq_none_iff.mp hi v hv
      simp at this
    | some k =>
      obtain ⟨hk, h1, _⟩ := List.findIdx?_eq_some_iff_getElem.mp hi
      simp only [decide_eq_true_eq] at h1
      have hkv : f.vals[k] = v := by
        obtain ⟨j, hj, hjv⟩ := List.getElem_of_mem hv
        have := (List.nodup_iff_injective_getElem.mp hn) (a₁ := ⟨k, by simpa using hk⟩) (a₂ := ⟨j, by simpa using hj⟩)
          (by simp [h1, hjv])
        simp only [Fin.mk.injEq] at this
        subst this
        exact hjv
      simp only [List.getElem?_eq_getElem hk, hkv]

/-- Instances: a derived value taken in, offered again, and found by its number. -/
example : let f := run init [.append ⟨1, "a", false, .good, 1⟩, .append ⟨2, "dependent1", true, .good, 2⟩,
      .append ⟨3, "dependent2", true, .good, 3⟩]
    (step f (.setCurrObj ⟨3, "dependent2", true, .good, 3⟩)).2 = .error .valueError ∧
    getitem f (.derived 1) = .ok ⟨3, "dependent2", true, .good, 3⟩ ∧ f.owned = [3, 2] := by decide

end Verif.Field

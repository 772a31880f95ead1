import Verif.PyList

/-! Helper lemmas on the Python container primitives (not property theorems). -/

namespace Verif.Py

theorem idx_nat (n k : Nat) : idx n (k : Int) = if k < n then some k else none := by
  unfold idx
  have h : (0 : Int) ≤ k := by omega
  simp [h]

theorem idx_some_lt {n k : Nat} {i : Int} (h : idx n i = some k) : k < n := by
  unfold idx at h
  split at h <;> split at h <;> simp at h <;> omega

theorem idx_neg_one (n : Nat) : idx (n + 1) (-1) = some n := by
  unfold idx
  have h1 : ¬ (0 : Int) ≤ -1 := by omega
  have h2 : (0 : Int) ≤ -1 + (n + 1 : Nat) := by omega
  rw [if_neg h1, if_pos h2]
  congr 1
  omega

@[simp] theorem get?_nat {α : Type _} (l : List α) (k : Nat) : get? l (k : Int) = l[k]? := by
  unfold get?
  rw [idx_nat]
  split <;> rename_i h
  · simp
  · simp; omega

@[simp] theorem get?_zero {α : Type _} (l : List α) : get? l 0 = l[0]? := get?_nat l 0

theorem getElem?_mod_ne {α : Type _} (l : List α) (k j : Nat) (f : α → α) (h : k ≠ j) :
    (l.modify k f)[j]? = l[j]? := by simp [List.getElem?_modify, h]

theorem getElem?_mod_eq {α : Type _} (l : List α) (k : Nat) (f : α → α) :
    (l.modify k f)[k]? = l[k]?.map f := by simp

theorem modify_oob {α : Type _} (l : List α) (k : Nat) (f : α → α) (h : l.length ≤ k) :
    l.modify k f = l := by
  induction l generalizing k with
  | nil => simp
  | cons a l ih =>
    cases k with
    | zero => simp at h
    | succ k => simp at h; simp [ih _ h]

@[simp] theorem update_nat {α : Type _} (l : List α) (k : Nat) (f : α → α) :
    update l (k : Int) f = l.modify k f := by
  unfold update
  rw [idx_nat]
  by_cases h : k < l.length
  · simp [h]
  · simp [h]; rw [modify_oob]; omega

@[simp] theorem update_zero {α : Type _} (l : List α) (f : α → α) :
    update l 0 f = l.modify 0 f := update_nat l 0 f

@[simp] theorem update_succ {α : Type _} (l : List α) (k : Nat) (f : α → α) :
    update l ((k : Int) + 1) f = l.modify (k + 1) f := by
  have := update_nat l (k + 1) f
  simpa using this

@[simp] theorem length_update {α : Type _} (l : List α) (i : Int) (f : α → α) :
    (update l i f).length = l.length := by
  unfold update; split <;> simp

theorem insertPos_le (n : Nat) (i : Int) : insertPos n i ≤ n := by
  unfold insertPos; split <;> omega

@[simp] theorem length_insert {α : Type _} (l : List α) (i : Int) (x : α) :
    (insert l i x).length = l.length + 1 := by
  have := insertPos_le l.length i
  simp [insert]; omega

theorem pop?_none {α : Type _} {l : List α} {i : Int} : pop? l i = none ↔ idx l.length i = none := by
  unfold pop?
  cases h : idx l.length i with
  | none => simp
  | some k =>
    have := idx_some_lt h
    simp [this]

theorem pop?_some {α : Type _} {l : List α} {i : Int} {k : Nat} (h : idx l.length i = some k) :
    ∃ hk : k < l.length, pop? l i = some (l[k], l.eraseIdx k) := by
  have := idx_some_lt h
  exact ⟨this, by simp [pop?, h, this]⟩

theorem get?_eq {α : Type _} {l : List α} {i : Int} {k : Nat} (h : idx l.length i = some k) :
    get? l i = l[k]? := by simp [get?, h]

theorem update_eq {α : Type _} {l : List α} {i : Int} {k : Nat} (h : idx l.length i = some k)
    (f : α → α) : update l i f = l.modify k f := by simp [update, h]

theorem rotate_append {α : Type _} (a b : List α) : rotate (a ++ b) b.length = b ++ a := by
  unfold rotate
  by_cases h : (a ++ b).length = 0
  · simp at h; simp [h]
  · rw [if_neg h]
    by_cases ha : a.length = 0
    · have ha' : a = [] := List.length_eq_zero_iff.mp ha
      subst ha'
      simp
    · have hlt : b.length < (a ++ b).length := by simp; omega
      simp only [Nat.mod_eq_of_lt hlt]
      have : (a ++ b).length - b.length = a.length := by simp
      rw [this]; simp

@[simp] theorem popright_append {α : Type _} (q : List α) (x : α) :
    popright (q ++ [x]) = some (x, q) := by simp [popright]

theorem popright_some {α : Type _} {q q' : List α} {x : α} (h : popright q = some (x, q')) :
    q = q' ++ [x] := by
  unfold popright at h
  rcases List.eq_nil_or_concat q with h0 | ⟨l, y, h0⟩
  · simp [h0] at h
  · subst h0; simp at h; obtain ⟨rfl, rfl⟩ := h; simp

theorem popright_none {α : Type _} {q : List α} : popright q = none ↔ q = [] := by
  simp [popright]

end Verif.Py

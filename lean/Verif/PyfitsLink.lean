import Mathlib.Data.List.Basic
import Mathlib.Data.List.Induction
import Mathlib.Tactic.Push

/-!
# Which PyFITS the installer fetches (astropysics/config.py 391-428) (C222)

`_PyfitsInstaller` reads the download page as a stream of tags and texts.  The stream is what `HTMLParser` calls the handlers with; tag names arrive
in lower case.
-/

namespace Verif.PyfitsLink

/-- What the parser reports. -/
inductive Ev
  | start (tag : String) (attrs : List (String × Option String))
  | stop (tag : String)
  | data (text : List Char)
  deriving DecidableEq

/-- The parser's attributes `intr`, `lastlink`, `dlurl` (config.py:395-398). -/
structure St where
  intr : Bool
  lastlink : Option String
  dlurl : Option String
  deriving DecidableEq

def st0 : St := ⟨false, none, none⟩

def phrase : List Char := "Current stable release".toList

/-- The handlers (config.py:416-428).  `needle in data` is `isInfixOf`. -/
def handle (s : St) : Ev → St
  | .start tag attrs =>
    if tag = "tr" then { s with intr := true }
    else if tag = "a" then { s with lastlink := attrs.foldl (fun l nv => if nv.1 = "href" then nv.2 else l) s.lastlink }
    else s
  | .stop tag => if tag = "tr" then { s with intr := false } else s
  | .data text => if s.intr && decide (phrase <:+: text) then { s with dlurl := s.lastlink } else s

/-- `getUrl` (config.py:400-413): the address, or nothing found (an error in the code, `urlparse(None)`). -/
def url (page : List Ev) : Option String := (page.foldl handle st0).dlurl

/-! ## Specification -/

/-- The last row tag before a point is an opening one. -/
def InRow (pre : List Ev) : Prop := ∃ a at' b, pre = a ++ Ev.start "tr" at' :: b ∧ ∀ e ∈ b, e ≠ Ev.stop "tr"

/-- The last link before a point goes to `l`. -/
def LastLink (pre : List Ev) (l : Option String) : Prop :=
  ∃ a attrs x y b, pre = a ++ Ev.start "a" attrs :: b ∧ attrs = x ++ ("href", l) :: y ∧ (∀ nv ∈ y, nv.1 ≠ "href") ∧
    ∀ e ∈ b, ∀ at' v, e = Ev.start "a" at' → ("href", v) ∉ at'

/-- No link before a point. -/
def NoLink (pre : List Ev) : Prop := ∀ e ∈ pre, ∀ at' v, e = Ev.start "a" at' → ("href", v) ∉ at'

/-- A text that announces the stable release, in a row. -/
def Announces (pre : List Ev) (e : Ev) : Prop := ∃ t, e = Ev.data t ∧ phrase <:+: t ∧ InRow pre

theorem intr_iff (page : List Ev) : (page.foldl handle st0).intr = true ↔ InRow page := by
  induction page using List.reverseRecOn with
  | nil => simp [st0, InRow]
  | append_singleton pre e ih =>
    rw [List.foldl_append, List.foldl_cons, List.foldl_nil]
    have keep : (∀ at', e ≠ Ev.start "tr" at') → e ≠ Ev.stop "tr" → (InRow (pre ++ [e]) ↔ InRow pre) := by
      intro h1 h2
      constructor
      · rintro ⟨a, at', b, hp, hb⟩
        rcases List.eq_nil_or_concat b with rfl | ⟨b', x, rfl⟩
        · have := (List.append_inj' hp rfl).2
          simp only [List.cons.injEq, and_true] at this
          exact absurd this (h1 at')
        · rw [List.concat_eq_append, ← List.cons_append, ← List.append_assoc] at hp
          have := (List.append_inj' hp rfl).1
          exact ⟨a, at', b', this, fun e' he' => hb e' (by simp [he'])⟩
      · rintro ⟨a, at', b, hp, hb⟩
        refine ⟨a, at', b ++ [e], by simp [hp], ?_⟩
        intro e' he'
        rcases List.mem_append.1 he' with h | h
        · exact hb e' h
        · simp only [List.mem_singleton] at h; rw [h]; exact h2
    cases e with
    | start tag attrs =>
      by_cases ht : tag = "tr"
      · subst ht
        simp only [handle, if_true, true_iff]
        exact ⟨pre, attrs, [], rfl, by simp⟩
      · rw [keep (by intro _ h; cases h; exact ht rfl) (by intro h; cases h), ← ih]
        simp only [handle, if_neg ht]
        split <;> rfl
    | stop tag =>
      by_cases ht : tag = "tr"
      · subst ht
        simp only [handle, if_true, Bool.false_eq_true, false_iff]
        rintro ⟨a, at', b, hp, hb⟩
        rcases List.eq_nil_or_concat b with rfl | ⟨b', x, rfl⟩
        · have := (List.append_inj' hp rfl).2
          simp at this
        · rw [List.concat_eq_append, ← List.cons_append, ← List.append_assoc] at hp
          have := (List.append_inj' hp rfl).2
          simp only [List.cons.injEq, and_true] at this
          exact hb x (by simp) this.symm
      · rw [keep (by intro _ h; cases h) (by intro h; cases h; exact ht rfl), ← ih]
        simp [handle, ht]
    | data t =>
      rw [keep (by intro _ h; cases h) (by intro h; cases h), ← ih]
      simp only [handle]
      split <;> rfl

theorem href_fold (l0 : Option String) (attrs : List (String × Option String)) :
    ((∀ v, ("href", v) ∉ attrs) → attrs.foldl (fun l nv => if nv.1 = "href" then nv.2 else l) l0 = l0) ∧
    ((∃ v, ("href", v) ∈ attrs) → ∃ x y, attrs = x ++ ("href", attrs.foldl (fun l nv => if nv.1 = "href" then nv.2 else l) l0) :: y ∧
      ∀ nv ∈ y, nv.1 ≠ "href") := by
  induction attrs using List.reverseRecOn with
  | nil => simp
  | append_singleton l nv ih =>
    obtain ⟨n, v⟩ := nv
    rw [List.foldl_append, List.foldl_cons, List.foldl_nil]
    by_cases hn : n = "href"
    · subst hn
      constructor
      · intro h; exact absurd (by simp) (h v)
      · intro _; exact ⟨l, [], by simp, by simp⟩
    · simp only [if_neg hn]
      constructor
      · intro h
        exact ih.1 fun w hw => h w (List.mem_append_left _ hw)
      · rintro ⟨w, hw⟩
        have hw' : ("href", w) ∈ l := by
          rcases List.mem_append.1 hw with h | h
          · exact h
          · simp only [List.mem_singleton, Prod.mk.injEq] at h; exact absurd h.1.symm hn
        obtain ⟨x, y, h1, h2⟩ := ih.2 ⟨w, hw'⟩
        refine ⟨x, y ++ [(n, v)], ?_, ?_⟩
        · conv_lhs => rw [h1]
          simp
        · intro nv hnv
          rcases List.mem_append.1 hnv with h | h
          · exact h2 nv h
          · simp only [List.mem_singleton] at h; subst h; exact hn

/-- Whether an event is a link. -/
def IsLink (e : Ev) : Prop := ∃ at' v, e = Ev.start "a" at' ∧ ("href", v) ∈ at'

theorem lastlink_spec (page : List Ev) :
    (NoLink page ∧ (page.foldl handle st0).lastlink = none) ∨ LastLink page (page.foldl handle st0).lastlink := by
  induction page using List.reverseRecOn with
  | nil => left; exact ⟨(by intro e he; cases he), rfl⟩
  | append_singleton pre e ih =>
    rw [List.foldl_append, List.foldl_cons, List.foldl_nil]
    generalize pre.foldl handle st0 = s at *
    by_cases hl : IsLink e
    · obtain ⟨at', v, rfl, hv⟩ := hl
      right
      obtain ⟨x, y, h1, h2⟩ := (href_fold s.lastlink at').2 ⟨v, hv⟩
      refine ⟨pre, at', x, y, [], rfl, ?_, h2, by simp⟩
      simpa [handle] using h1
    · have hkeep : (handle s e).lastlink = s.lastlink := by
        cases e with
        | start tag attrs =>
          simp only [handle]
          split
          · rfl
          · split
            · next ht =>
              subst ht
              refine (href_fold s.lastlink attrs).1 ?_
              intro v hv
              exact hl ⟨attrs, v, rfl, hv⟩
            · rfl
        | stop tag => simp only [handle]; split <;> rfl
        | data t => simp only [handle]; split <;> rfl
      have hno : ∀ at' v, e = Ev.start "a" at' → ("href", v) ∉ at' := fun at' v he hv => hl ⟨at', v, he, hv⟩
      rw [hkeep]
      rcases ih with ⟨h1, h2⟩ | ⟨a, attrs, x, y, b, hp, ha, hy, hb⟩
      · left
        refine ⟨?_, h2⟩
        intro e' he'
        rcases List.mem_append.1 he' with h | h
        · exact h1 e' h
        · simp only [List.mem_singleton] at h; rw [h]; exact hno
      · right
        refine ⟨a, attrs, x, y, b ++ [e], by simp [hp], ha, hy, ?_⟩
        intro e' he'
        rcases List.mem_append.1 he' with h | h
        · exact hb e' h
        · simp only [List.mem_singleton] at h; rw [h]; exact hno

theorem dlurl_step (pre : List Ev) (e : Ev) :
    (Announces pre e → (handle (pre.foldl handle st0) e).dlurl = (pre.foldl handle st0).lastlink) ∧
    (¬ Announces pre e → (handle (pre.foldl handle st0) e).dlurl = (pre.foldl handle st0).dlurl) := by
  constructor
  · rintro ⟨t, rfl, ht, hr⟩
    simp [handle, (intr_iff pre).2 hr, ht]
  · intro h
    cases e with
    | start tag attrs => simp only [handle]; split <;> [rfl; split <;> rfl]
    | stop tag => simp only [handle]; split <;> rfl
    | data t =>
      simp only [handle]
      split
      · next hc =>
        simp only [Bool.and_eq_true, decide_eq_true_eq] at hc
        exact absurd ⟨t, rfl, hc.2, (intr_iff pre).1 hc.1⟩ h
      · rfl

/-- **C222.** On every page: the address is that of the last link before the last announcement of a stable release in a table row — wherever that link stands,
be it in an earlier row. -/
theorem address (page pre post : List Ev) (e : Ev) (hp : page = pre ++ e :: post) (ha : Announces pre e)
    (hlast : ∀ p f q, post = p ++ f :: q → ¬ Announces (pre ++ e :: p) f) :
    (NoLink pre ∧ url page = none) ∨ LastLink pre (url page) := by
  have key : (page.foldl handle st0).dlurl = (pre.foldl handle st0).lastlink := by
    subst hp
    induction post using List.reverseRecOn with
    | nil =>
      rw [List.foldl_append, List.foldl_cons, List.foldl_nil]
      exact (dlurl_step pre e).1 ha
    | append_singleton p f ih =>
      have h1 := ih (fun a g b h => hlast a g (b ++ [f]) (by rw [h]; simp))
      have h2 := hlast p f [] rfl
      rw [show pre ++ e :: (p ++ [f]) = (pre ++ e :: p) ++ [f] by simp, List.foldl_append, List.foldl_cons, List.foldl_nil,
        (dlurl_step _ f).2 h2]
      exact h1
  unfold url
  rw [key]
  exact lastlink_spec pre

/-- **C222.** A page without such an announcement gives no address. -/
theorem no_address (page : List Ev) (h : ∀ p f q, page = p ++ f :: q → ¬ Announces p f) : url page = none := by
  unfold url
  induction page using List.reverseRecOn with
  | nil => rfl
  | append_singleton p f ih =>
    rw [List.foldl_append, List.foldl_cons, List.foldl_nil, (dlurl_step p f).2 (h p f [] rfl)]
    exact ih fun a g b hh => h a g (b ++ [f]) (by rw [hh]; simp)

/-! ## Concrete cases -/

/-- The usual page: the link stands in the row, before the text. -/
example : url [.start "a" [("href", some "/home")], .stop "a", .start "tr" [], .start "a" [("class", none), ("href", some "/pyfits-2.tar")],
    .data "pyfits".toList, .stop "a", .data "Current stable release 2".toList, .stop "tr", .start "a" [("href", some "/x")], .stop "a"] = some "/pyfits-2.tar" := by
  decide +kernel

/-- With the text before the link, an unrelated earlier link is taken. -/
example : url [.start "a" [("href", some "/home")], .stop "a", .start "tr" [], .data "Current stable release".toList,
    .start "a" [("href", some "/pyfits-2.tar")], .stop "a", .stop "tr"] = some "/home" := by decide +kernel

/-- Outside a row the text says nothing. -/
example : url [.start "a" [("href", some "/home")], .stop "a", .start "tr" [], .stop "tr", .data "Current stable release".toList] = none := by decide +kernel

end Verif.PyfitsLink

import Mathlib.Data.List.Sort
import Mathlib.Data.List.Range
import Verif.CmdProps

/-!
# CMDAnalyzer: the cached offsets, the distance, the settings (C119-C121)
-/

namespace Verif.Cmd

open Verif.CmdTables (Table Entry Spec Warn look toDicts)

/-! ## C119: are the offsets those of the current settings? -/

/-- The steps that the cached offsets do not notice. -/
def Unnoticed : Op → Prop
  | .locs _ _ => True
  | .center _ => True
  | .offsetweights none => True
  | _ => False

/-- What `getOffsets` would return if nothing were cached: what it returns after `clearOffsets()`. -/
noncomputable def current (s : Cmd) : Except Err (List (Option ℝ)) := (getOffsets (clear s)).1

/-- The cache holds the current offsets, if it holds anything. -/
def Fresh (s : Cmd) : Prop := ∀ o, s.offsets = some o → s.data.isSome ∧ calcOff s = .ok o

theorem fresh_none (s : Cmd) (h : s.offsets = none) : Fresh s := fun o ho => by rw [h] at ho; cases ho

theorem calcOff_clear (s : Cmd) (o : Option (List (Option ℝ))) : calcOff { s with offsets := o } = calcOff s := rfl

theorem fresh_current (s : Cmd) (h : Fresh s) : (getOffsets s).1 = current s := by
  unfold current
  cases hd : s.data with
  | none =>
    have h1 : getOffsets s = (.error .value, s) := by unfold getOffsets; rw [hd]
    have h2 : getOffsets (clear s) = (.error .value, clear s) := by unfold getOffsets clear; simp only [hd]
    rw [h1, h2]
  | some d =>
    have h2 : (getOffsets (clear s)).1 = calcOff s := by
      unfold getOffsets
      have hd' : (clear s).data = some d := hd
      have ho' : (clear s).offsets = none := rfl
      rw [hd', ho']
      simp only
      have hcc : calcOff (clear s) = calcOff s := rfl
      rw [hcc]
      cases calcOff s <;> rfl
    rw [h2]
    unfold getOffsets
    rw [hd]
    simp only
    cases ho : s.offsets with
    | some o => exact (h o ho).2.symm
    | none =>
      simp only
      cases calcOff s <;> rfl

theorem getOffsets_calc (s : Cmd) (d : List (Option (List ℝ))) (o : List (Option ℝ)) (hd : s.data = some d)
    (ho : s.offsets = none) (hc : calcOff s = .ok o) : getOffsets s = (.ok o, { s with offsets := some o }) := by
  cases s
  simp only at hd ho
  subst hd ho
  unfold getOffsets
  simp only
  rw [hc]

theorem getOffsets_fail (s : Cmd) (d : List (Option (List ℝ))) (e : Err) (hd : s.data = some d)
    (ho : s.offsets = none) (hc : calcOff s = .error e) : getOffsets s = (.error e, s) := by
  cases s
  simp only at hd ho
  subst hd ho
  unfold getOffsets
  simp only
  rw [hc]

theorem step_fresh (s : Cmd) (op : Op) (h : Fresh s) (hq : ¬ Unnoticed op) : Fresh (step s op) := by
  cases op with
  | dataMap known specs rows n =>
    show Fresh (orElse s _)
    cases hx : setDataMap known specs rows n s with
    | error e => exact h
    | ok t =>
      refine fresh_none _ ?_
      unfold setDataMap at hx
      cases hd : toDicts known specs rows with
      | error e => rw [hd] at hx; cases hx
      | ok p =>
        rw [hd] at hx
        simp only at hx
        split at hx
        · cases hx
        · cases hx; rfl
  | dataSeq rows n =>
    show Fresh (orElse s _)
    cases hx : setDataSeq rows n s with
    | error e => exact h
    | ok t =>
      refine fresh_none _ ?_
      unfold setDataSeq at hx
      split at hx
      · cases hx
      · cases hx; rfl
  | locs v n => exact absurd trivial hq
  | names v =>
    show Fresh (orElse s _)
    cases hx : setNames v s with
    | error e => exact h
    | ok t =>
      unfold setNames at hx
      split at hx
      · cases hx
      · cases hx; exact h
  | groups v =>
    show Fresh (orElse s _)
    cases hx : setGroups v s with
    | error e => exact h
    | ok t =>
      unfold setGroups at hx
      cases v with
      | none => cases hx; exact h
      | some g =>
        simp only at hx
        split at hx
        · cases hx
        · cases hx; exact h
  | center v => exact absurd trivial hq
  | offsetbands v =>
    show Fresh (orElse s _)
    cases hx : setOffBands v s with
    | error e => exact h
    | ok t =>
      refine fresh_none _ ?_
      unfold setOffBands at hx
      cases v with
      | none => cases hx; rfl
      | some l =>
        simp only at hx
        cases ha : argSels s l with
        | error e => rw [ha] at hx; cases hx
        | ok x => rw [ha] at hx; cases hx; rfl
  | distmod v => exact fresh_none _ rfl
  | offsetweights v =>
    cases v with
    | none => exact absurd trivial hq
    | some w =>
      show Fresh (orElse s _)
      cases hx : setWs (some w) s with
      | error e => exact h
      | ok t =>
        refine fresh_none _ ?_
        unfold setWs at hx
        simp only at hx
        cases hb : s.offbands with
        | none =>
          rw [hb] at hx
          simp only at hx
          split at hx <;> cases hx
        | some l =>
          rw [hb] at hx
          simp only at hx
          split at hx
          · cases hx
          · cases hx; rfl
  | locweight v => exact fresh_none _ rfl
  | clearOffsets => exact fresh_none _ rfl
  | getOffsets =>
    show Fresh (getOffsets s).2
    cases hd : s.data with
    | none =>
      have h1 : getOffsets s = (.error .value, s) := by unfold getOffsets; rw [hd]
      rw [h1]; exact h
    | some d =>
      cases ho : s.offsets with
      | some o =>
        have h1 : getOffsets s = (.ok o, s) := by unfold getOffsets; rw [hd, ho]
        rw [h1]; exact h
      | none =>
        cases hc : calcOff s with
        | error e => rw [getOffsets_fail s d e hd ho hc]; exact h
        | ok o =>
          rw [getOffsets_calc s d o hd ho hc]
          intro o' ho'
          cases ho'
          refine ⟨?_, hc⟩
          show s.data.isSome
          rw [hd]; rfl

theorem run_fresh (h : List Op) (hq : ∀ op ∈ h, ¬ Unnoticed op) (s : Cmd) (hs : Fresh s) : Fresh (run s h) := by
  induction h generalizing s with
  | nil => exact hs
  | cons op h ih =>
    exact ih (fun op' ho => hq op' (List.mem_cons_of_mem _ ho)) _ (step_fresh s op hs (hq op List.mem_cons_self))

/-- **C119.** Whatever happened before, once the cached offsets have been dropped (new data, `offsetbands`, `distmod`, `locweight`, new
weights, `clearOffsets`) every later `getOffsets` returns the offsets of the settings at that moment, as long as `locs`, `center` and
`offsetweights = None` are not among the steps in between. -/
theorem offsets_current (s : Cmd) (op : Op) (hop : (step s op).offsets = none) (h : List Op)
    (hq : ∀ op ∈ h, ¬ Unnoticed op) : (getOffsets (run (step s op) h)).1 = current (run (step s op) h) :=
  fresh_current _ (run_fresh h hq _ (fresh_none _ hop))

/-- The steps named in C119 do drop the cached offsets. -/
theorem drops (s : Cmd) : (∀ v, (step s (.distmod v)).offsets = none) ∧ (∀ v, (step s (.locweight v)).offsets = none) ∧
    (step s .clearOffsets).offsets = none ∧ (step s (.offsetbands none)).offsets = none ∧
    (∀ rows n, rows.length = s.names.length → (step s (.dataSeq rows n)).offsets = none) := by
  refine ⟨fun _ => rfl, fun _ => rfl, rfl, rfl, ?_⟩
  intro rows n hl
  show (orElse s (setDataSeq rows n s)).offsets = none
  unfold setDataSeq
  rw [if_neg (not_not.2 hl)]
  rfl

/-- A new analyzer has nothing cached, so C119 holds for a whole history without the three steps. -/
theorem offsets_current_new (known : String → Bool) (order : Table ℝ → List String) (specs : List Spec) (rows : List (List ℝ))
    (n : Nat) (fidname : String ⊕ List (String × List Nat)) (s : Cmd)
    (hc : create known order specs rows n fidname = .ok s) (h : List Op) (hq : ∀ op ∈ h, ¬ Unnoticed op) :
    (getOffsets (run s h)).1 = current (run s h) := by
  refine fresh_current _ (run_fresh h hq _ (fresh_none _ ?_))
  unfold create at hc
  cases ht : toDicts known specs rows with
  | error e => rw [ht] at hc; cases hc
  | ok p =>
    rw [ht] at hc
    simp only at hc
    cases hf : fidNames n fidname with
    | error e => rw [hf] at hc; cases hc
    | ok d => rw [hf] at hc; cases hc; rfl

/-- **C119, limit.** Once offsets have been computed, changing `center`, `locs` or setting `offsetweights` to None does not change what is
returned, whatever the new value is. -/
theorem stale_forever (s : Cmd) (o : List (Option ℝ)) (hd : s.data.isSome) (ho : s.offsets = some o) (op : Op)
    (hop : Unnoticed op) : (getOffsets (step s op)).1 = .ok o := by
  have key : ∀ t : Cmd, t.data = s.data → t.offsets = s.offsets → (getOffsets t).1 = .ok o := by
    intro t h1 h2
    unfold getOffsets
    cases hd' : s.data with
    | none => rw [hd'] at hd; cases hd
    | some d => rw [h1, hd', h2, ho]
  cases op with
  | locs v n =>
    show (getOffsets (orElse s _)).1 = _
    cases hx : setLocs v n s with
    | error e => exact key s rfl rfl
    | ok t =>
      unfold setLocs at hx
      cases v with
      | none => cases hx; exact key _ rfl rfl
      | some arr =>
        simp only at hx
        split at hx
        · cases hx
        · split at hx
          · cases hx
          · cases hx; exact key _ rfl rfl
  | center v =>
    show (getOffsets (orElse s _)).1 = _
    cases hx : setCen v s with
    | error e => exact key s rfl rfl
    | ok t =>
      unfold setCen at hx
      split at hx
      · cases hx; exact key _ rfl rfl
      · cases hx; exact key _ rfl rfl
      · cases hx; exact key _ rfl rfl
      · cases hx
  | offsetweights v =>
    cases v with
    | none => exact key _ rfl rfl
    | some w => exact absurd hop id
  | dataMap => exact absurd hop id
  | dataSeq => exact absurd hop id
  | names => exact absurd hop id
  | groups => exact absurd hop id
  | offsetbands => exact absurd hop id
  | distmod => exact absurd hop id
  | locweight => exact absurd hop id
  | clearOffsets => exact absurd hop id
  | getOffsets => exact absurd hop id

/-- An analyzer with one band, one fiducial point and one object, at the position (3,4). -/
noncomputable def demo : Cmd :=
  { names := ["r"], fid := [("r", ⟨[10], true⟩)], nfid := 1, fidnames := [("fiducial", [0])], dmod := 0,
    data := some [some [10]], datamask := [true], nd := 1, cen := [0, 0, 0], locs := some [[3], [4]], dnames := none,
    dgrp := none, offsets := none, offbands := none, offws := none, locw := some 1 }

theorem demo_used (s : Cmd) (h1 : s.names = ["r"]) (h2 : s.fid = [("r", ⟨[10], true⟩)]) (h3 : s.datamask = [true])
    (h4 : s.offbands = none) : used s = .ok [.one "r"] := by
  unfold used
  rw [h4]
  simp only [h1]
  have h : (fidMask s "r" && dataMask s "r") = true := by
    unfold fidMask dataMask look
    rw [h1, h2, h3]
    decide
  simp [h]

theorem demo_calc (c : List ℝ) (h : c.length = 3) :
    calcOff { demo with cen := c } =
      .ok [root ((3 - c.getD 0 0) ^ 2 + (4 - c.getD 1 0) ^ 2)] := by
  obtain ⟨x, y, z, rfl⟩ : ∃ x y z, c = [x, y, z] := by
    match c, h with
    | [x, y, z], _ => exact ⟨x, y, z, rfl⟩
  unfold calcOff
  rw [demo_used { demo with cen := [x, y, z] } rfl rfl rfl rfl]
  have hcol : column { demo with cen := [x, y, z] } (.one "r") = ([10 + 0], some [10]) := by
    unfold column fidRow dataRow look demo
    simp
  simp only [List.map_cons, List.map_nil, hcol, complete]
  rw [if_neg (by simp [demo]), if_neg (by simp [demo, weightsOf])]
  simp only [Option.map_some]
  rw [if_neg (by simp [demo, weightsOf, badWeight])]
  simp [demo, weightsOf, weighted, weight, cmdSq, sumSq, sqTerm, lmin, locTerm, locSq]

/-- **C119, limit.** A concrete history: the offsets are asked for, the centre is moved onto the object, and the old offset 5 is still
returned, where 0 is the current one. -/
theorem center_stale :
    (getOffsets (run demo [.getOffsets, .center (some [3, 4])])).1 = .ok [some 5] ∧
    current (run demo [.getOffsets, .center (some [3, 4])]) = .ok [some 0] := by
  have h5 : calcOff demo = .ok [some 5] := by
    have := demo_calc [0, 0, 0] rfl
    have e : { demo with cen := [0, 0, 0] } = demo := rfl
    rw [e] at this
    rw [this]
    unfold root
    norm_num
    rw [show (25 : ℝ) = 5 ^ 2 by norm_num, Real.sqrt_sq (by norm_num)]
  have h0 : calcOff { demo with cen := [3, 4, 0] } = .ok [some 0] := by
    rw [demo_calc [3, 4, 0] rfl]
    unfold root
    norm_num
  have hg : step demo .getOffsets = { demo with offsets := some [some 5] } := by
    show (getOffsets demo).2 = _
    rw [getOffsets_calc demo [some [10]] [some 5] rfl rfl h5]
  have hr : run demo [.getOffsets, .center (some [3, 4])] = step (step demo .getOffsets) (.center (some [3, 4])) := rfl
  rw [hr, hg]
  refine ⟨rfl, ?_⟩
  unfold current
  rw [getOffsets_calc (clear (step { demo with offsets := some [some 5] } (.center (some [3, 4])))) [some [10]] [some 0] rfl rfl h0]

/-! ## C120: the distance -/

/-- **C120.** Offsets made of colours alone do not depend on the distance modulus. -/
theorem colors_distance_free (s : Cmd) (l : List Sel) (hl : s.offbands = some l)
    (hp : ∀ x ∈ l, ∃ b c, x = .pair b c) (d : ℝ) : calcOff { s with dmod := d } = calcOff s := by
  have hu : used { s with dmod := d } = used s := rfl
  unfold calcOff
  rw [hu]
  cases h : used s with
  | error e => rfl
  | ok l' =>
    have : l' = l := by
      have := used_selection s l' h
      rw [this]; unfold selection; rw [hl]
    subst this
    have hcol : l'.map (column { s with dmod := d }) = l'.map (column s) := by
      refine List.map_congr_left ?_
      intro x hx
      obtain ⟨b, c, rfl⟩ := hp x hx
      rfl
    simp only [hcol]
    rfl

/-- The data of all bands made fainter by `δ`, and the distance modulus larger by `δ`. -/
noncomputable def fainter (δ : ℝ) (s : Cmd) : Cmd :=
  { s with data := s.data.map (fun d => d.map (fun r => r.map (fun row => row.map (· + δ)))), dmod := s.dmod + δ }

theorem dataRow_fainter (δ : ℝ) (s : Cmd) (b : String) :
    dataRow (fainter δ s) b = (dataRow s b).map (fun row => row.map (· + δ)) := by
  unfold dataRow fainter
  cases hd : s.data with
  | none => rfl
  | some d =>
    simp only [Option.map_some, Option.getD_some]
    rw [List.getD_eq_getElem?_getD, List.getD_eq_getElem?_getD, List.getElem?_map]
    cases d[s.names.idxOf b]? with
    | none => rfl
    | some r => rfl

theorem zipWith_shift (δ : ℝ) : ∀ u v : List ℝ,
    List.zipWith (· - ·) (u.map (· + δ)) (v.map (· + δ)) = List.zipWith (· - ·) u v
  | [], _ => rfl
  | _ :: _, [] => rfl
  | x :: u, y :: v => by simp [zipWith_shift δ u v]

/-- The column of a selection after both shifts: a magnitude column is shifted as a whole, a colour column is unchanged. -/
theorem column_fainter (δ : ℝ) (s : Cmd) (x : Sel) :
    ∃ ε, column (fainter δ s) x =
      (((column s x).1.map (· + ε)), (column s x).2.map (fun row => row.map (· + ε))) := by
  cases x with
  | one b =>
    refine ⟨δ, ?_⟩
    show ((fidRow s b).map (· + (s.dmod + δ)), dataRow (fainter δ s) b) = (((fidRow s b).map (· + s.dmod)).map (· + δ), _)
    rw [dataRow_fainter, List.map_map]
    congr 1
    refine List.map_congr_left ?_
    intro y _
    simp only [Function.comp]
    ring
  | pair b c =>
    refine ⟨0, ?_⟩
    show (List.zipWith (· - ·) (fidRow s b) (fidRow s c), optSub (dataRow (fainter δ s) b) (dataRow (fainter δ s) c)) =
      ((List.zipWith (· - ·) (fidRow s b) (fidRow s c)).map (· + 0), _)
    rw [dataRow_fainter, dataRow_fainter]
    have h0 : ∀ l : List ℝ, l.map (· + 0) = l := fun l => by simp
    rw [h0]
    congr 1
    show _ = (optSub (dataRow s b) (dataRow s c)).map (fun row => row.map (· + 0))
    cases dataRow s b with
    | none => rfl
    | some u =>
      cases dataRow s c with
      | none => rfl
      | some v =>
        show some (List.zipWith (· - ·) (u.map (· + δ)) (v.map (· + δ))) = some ((List.zipWith (· - ·) u v).map (· + 0))
        rw [zipWith_shift, h0]

theorem diffs_shift (ε : ℝ) (f d : List ℝ) : diffs (f.map (· + ε)) (d.map (· + ε)) = diffs f d := by
  unfold diffs
  rw [List.flatMap_map]
  congr 1
  funext y
  rw [List.map_map]
  refine List.map_congr_left ?_
  intro x _
  simp only [Function.comp]
  ring

/-- Two columns that differ by a common shift of the fiducial and the data. -/
def Shifted (c' c : List ℝ × List ℝ) : Prop := ∃ ε, c' = (c.1.map (· + ε), c.2.map (· + ε))

theorem complete_shift (s t : Cmd) (l : List Sel)
    (h : ∀ x, ∃ ε, column t x = (((column s x).1.map (· + ε)), (column s x).2.map (fun row => row.map (· + ε)))) :
    (complete (l.map (column s)) = none ∧ complete (l.map (column t)) = none) ∨
    ∃ cs ct, complete (l.map (column s)) = some cs ∧ complete (l.map (column t)) = some ct ∧ List.Forall₂ Shifted ct cs ∧
      ∀ c ∈ cs, ∃ x ∈ l, column s x = (c.1, some c.2) := by
  induction l with
  | nil => exact Or.inr ⟨[], [], rfl, rfl, List.Forall₂.nil, fun c hc => by cases hc⟩
  | cons x l ih =>
    obtain ⟨ε, hε⟩ := h x
    cases hc : column s x with
    | mk f d =>
      rw [hc] at hε
      cases d with
      | none =>
        left
        refine ⟨?_, ?_⟩
        · rw [List.map_cons, hc]; rfl
        · rw [List.map_cons, hε]; rfl
      | some d =>
        rcases ih with ⟨h1, h2⟩ | ⟨cs, ct, h1, h2, h3, h4⟩
        · left
          refine ⟨?_, ?_⟩
          · rw [List.map_cons, hc]
            show (complete (l.map (column s))).map _ = none
            rw [h1]; rfl
          · rw [List.map_cons, hε]
            show (complete (l.map (column t))).map _ = none
            rw [h2]; rfl
        · right
          refine ⟨(f, d) :: cs, (f.map (· + ε), d.map (· + ε)) :: ct, ?_, ?_, List.Forall₂.cons ⟨ε, rfl⟩ h3, ?_⟩
          · rw [List.map_cons, hc]
            show (complete (l.map (column s))).map _ = _
            rw [h1]; rfl
          · rw [List.map_cons, hε]
            show (complete (l.map (column t))).map _ = _
            rw [h2]; rfl
          · intro c hc'
            rcases List.mem_cons.1 hc' with rfl | hc'
            · exact ⟨x, List.mem_cons_self, hc⟩
            · obtain ⟨y, hy, hyc⟩ := h4 c hc'
              exact ⟨y, List.mem_cons_of_mem _ hy, hyc⟩

theorem sumSq_shift (nf nd j k : Nat) (hj : j < nf) (hk : k < nd) : ∀ (ct cs : List (List ℝ × List ℝ)) (ws : List ℝ),
    List.Forall₂ Shifted ct cs → (∀ c ∈ cs, c.1.length = nf ∧ c.2.length = nd) →
    sumSq (weighted ct ws) j k = sumSq (weighted cs ws) j k
  | [], [], _, _, _ => rfl
  | [], _ :: _, _, h, _ => by cases h
  | _ :: _, [], _, h, _ => by cases h
  | c' :: ct, c :: cs, [], _, _ => rfl
  | c' :: ct, c :: cs, w :: ws, h, hl => by
    cases h with
    | cons h1 h2 =>
      have ih := sumSq_shift nf nd j k hj hk ct cs ws h2 (fun c hc => hl c (List.mem_cons_of_mem _ hc))
      obtain ⟨ε, rfl⟩ := h1
      obtain ⟨l1, l2⟩ := hl c List.mem_cons_self
      unfold sumSq weighted at ih ⊢
      simp only [List.zipWith_cons_cons, List.map_cons, List.sum_cons]
      rw [ih]
      congr 1
      unfold sqTerm weight
      simp only [diffs_shift]
      rw [getD_map' _ _ _ (by rw [l1]; exact hj), getD_map' _ _ _ (by rw [l2]; exact hk)]
      ring_nf

theorem bad_shift : ∀ (ct cs : List (List ℝ × List ℝ)) (ws : List ℝ), List.Forall₂ Shifted ct cs →
    ((∃ p ∈ ct.zip ws, badWeight p.1.1 p.1.2 p.2) ↔ ∃ p ∈ cs.zip ws, badWeight p.1.1 p.1.2 p.2)
  | [], [], _, _ => Iff.rfl
  | [], _ :: _, _, h => by cases h
  | _ :: _, [], _, h => by cases h
  | c' :: ct, c :: cs, [], _ => Iff.rfl
  | c' :: ct, c :: cs, w :: ws, h => by
    cases h with
    | cons h1 h2 =>
      have ih := bad_shift ct cs ws h2
      obtain ⟨ε, rfl⟩ := h1
      simp only [List.zip_cons_cons, List.exists_mem_cons_iff, ih]
      unfold badWeight
      simp only [diffs_shift]

/-- **C120.** Only the difference between the magnitudes and the distance modulus counts: if all objects are fainter by `δ` and the distance
modulus is larger by `δ`, the offsets are the same (also with weights, colours, locations, missing bands), and so are the errors. -/
theorem distance_shift (s : Cmd) (hs : Reachable s) (δ : ℝ) :
    calcOff (fainter δ s) = calcOff s := by
  have hwf := wf_reachable s hs
  have hu : used (fainter δ s) = used s := rfl
  unfold calcOff
  rw [hu]
  cases h : used s with
  | error e => rfl
  | ok l =>
    simp only
    have hl := used_selection s l h
    have hw : weightsOf (fainter δ s) l.length = weightsOf s l.length := rfl
    have hnd : (fainter δ s).nd = s.nd := rfl
    have hnf : (fainter δ s).nfid = s.nfid := rfl
    rw [hw, hnd, hnf]
    split
    · rfl
    · split
      · rfl
      · rcases complete_shift s (fainter δ s) l (column_fainter δ s) with ⟨h1, h2⟩ | ⟨cs, ct, h1, h2, h3, h4⟩
        · rw [h1, h2]
        · rw [h1, h2]
          simp only
          have hb := bad_shift ct cs (weightsOf s l.length) h3
          have hlen : ∀ c ∈ cs, c.1.length = s.nfid ∧ c.2.length = s.nd := by
            intro c hc
            obtain ⟨x, hx, hxc⟩ := h4 c hc
            have hn := selection_names s hwf x (hl ▸ hx)
            have hm : ∀ b ∈ bandsOf x, Measured s b := by
              intro b hb'
              have hsome : (column s x).2.isSome := by rw [hxc]; rfl
              cases x with
              | one b1 => rw [List.mem_singleton.1 hb']; exact hsome
              | pair b1 c1 =>
                have hsome' : (optSub (dataRow s b1) (dataRow s c1)).isSome := hsome
                have hb1 : b = b1 ∨ b = c1 := by simpa [bandsOf] using hb'
                unfold Measured
                cases e1 : dataRow s b1 with
                | none => rw [e1] at hsome'; cases hsome'
                | some u =>
                  cases e2 : dataRow s c1 with
                  | none => rw [e1, e2] at hsome'; cases hsome'
                  | some v =>
                    rcases hb1 with rfl | rfl
                    · rw [e1]; rfl
                    · rw [e2]; rfl
            have := column_len s hwf x hn hm
            rw [hxc] at this
            exact this
          have hmap : (List.range s.nd).map (fun k => root (cmdSq (weighted ct (weightsOf s l.length)) s.nfid k +
                locTerm (fainter δ s) k)) =
              (List.range s.nd).map (fun k => root (cmdSq (weighted cs (weightsOf s l.length)) s.nfid k + locTerm s k)) := by
            refine List.map_congr_left ?_
            intro k hk
            have hloc : locTerm (fainter δ s) k = locTerm s k := rfl
            rw [hloc]
            congr 2
            unfold cmdSq
            congr 1
            refine List.map_congr_left ?_
            intro j hj
            exact sumSq_shift s.nfid s.nd j k (List.mem_range.1 hj) (List.mem_range.1 hk) ct cs _ h3 hlen
          by_cases hbad : ∃ p ∈ cs.zip (weightsOf s l.length), badWeight p.1.1 p.1.2 p.2
          · rw [if_pos hbad, if_pos (hb.2 hbad)]
          · rw [if_neg hbad, if_neg (fun hc => hbad (hb.1 hc)), hmap]

/-- **C120.** The fiducial colour is the difference of the fiducial magnitudes, whatever the distance modulus and the named sequence are. -/
theorem fid_color (s : Cmd) (b c : String) (f : Option String) (x y : List ℝ) (hb : getFidBand s b f = .ok x)
    (hc : getFidBand s c f = .ok y) : getFidColor s b c f = .ok (List.zipWith (· - ·) x y) := by
  unfold getFidBand at hb hc
  unfold getFidColor
  cases hp : positions s f with
  | error e => rw [hp] at hb; cases hb
  | ok l =>
    rw [hp] at hb hc
    simp only at hb hc ⊢
    cases h1 : look s.fid b with
    | none => rw [h1] at hb; cases hb
    | some e =>
      cases h2 : look s.fid c with
      | none => rw [h2] at hc; cases hc
      | some g =>
        rw [h1] at hb
        rw [h2] at hc
        simp only at hb hc ⊢
        split at hb
        · next he =>
          split at hc
          · cases hb; cases hc
            rw [if_neg (by simp [he]), zipWith_shift]
          · cases hc
        · cases hb

/-- **C120.** Moving the distance modulus by `δ` moves every fiducial magnitude by `δ`. -/
theorem fid_moves (s : Cmd) (b : String) (f : Option String) (x : List ℝ) (δ : ℝ) (hb : getFidBand s b f = .ok x) :
    getFidBand { s with dmod := s.dmod + δ } b f = .ok (x.map (· + δ)) := by
  unfold getFidBand at hb ⊢
  have hp' : positions { s with dmod := s.dmod + δ } f = positions s f := by cases f <;> rfl
  rw [hp']
  cases hp : positions s f with
  | error e => rw [hp] at hb; cases hb
  | ok l =>
    rw [hp] at hb
    simp only at hb ⊢
    cases h1 : look s.fid b with
    | none => rw [h1] at hb; cases hb
    | some e =>
      rw [h1] at hb
      simp only at hb ⊢
      split at hb
      · next he =>
        cases hb
        rw [if_pos he, List.map_map]
        congr 1
        refine List.map_congr_left ?_
        intro y _
        simp only [Function.comp]
        ring
      · cases hb

/-! ## C121: settings -/

/-- **C121.** A dictionary of fiducial names is accepted exactly if it is a partition: every index below the number of points (two or more)
occurs once, and nothing else occurs. -/
theorem fidnames_partition (n : Nat) (hn : 2 ≤ n) (d : List (String × List Nat)) :
    (fidNames n (.inr d) = .ok d ↔ ∀ i, (d.flatMap Prod.snd).count i = if i < n then 1 else 0) ∧
    (fidNames n (.inr d) = .ok d ∨ fidNames n (.inr d) = .error .value) := by
  have hrw : fidNames n (.inr d) = if sortedIsArange (d.flatMap Prod.snd) n then .ok d else .error .value := rfl
  have hcount : ∀ i, (List.range n).count i = if i < n then 1 else 0 := by
    intro i
    by_cases hi : i < n
    · rw [if_pos hi]; exact List.count_eq_one_of_mem List.nodup_range (List.mem_range.2 hi)
    · rw [if_neg hi]; exact List.count_eq_zero_of_not_mem (fun hc => hi (List.mem_range.1 hc))
  have key : sortedIsArange (d.flatMap Prod.snd) n = true ↔ ∀ i, (d.flatMap Prod.snd).count i = if i < n then 1 else 0 := by
    generalize d.flatMap Prod.snd = v
    have hperm : (v.insertionSort (· ≤ ·)).Perm v := List.perm_insertionSort _ v
    have hlen : (v.insertionSort (· ≤ ·)).length = v.length := hperm.length_eq
    constructor
    · intro h
      unfold sortedIsArange at h
      simp only at h
      split at h
      · have he : v.insertionSort (· ≤ ·) = List.range n := by simpa using h
        intro i
        rw [← hperm.count_eq, he, hcount]
      · split at h
        · have h0 := List.all_eq_true.1 h 0 (List.mem_range.2 (by omega))
          have h1 := List.all_eq_true.1 h 1 (List.mem_range.2 (by omega))
          have h0' := eq_of_beq h0
          have h1' := eq_of_beq h1
          rw [h0'] at h1'
          cases h1'
        · rw [if_neg (by omega)] at h
          cases h
    · intro h
      have hp : v.Perm (List.range n) := by
        rw [List.perm_iff_count]
        intro i
        rw [h, hcount]
      have he : v.insertionSort (· ≤ ·) = List.range n := by
        refine List.Perm.eq_of_pairwise (le := (· ≤ ·)) ?_ ?_ ?_ (hperm.trans hp)
        · intro a b _ _ h1 h2; exact Nat.le_antisymm h1 h2
        · exact List.pairwise_insertionSort _ v
        · exact List.pairwise_le_range
      unfold sortedIsArange
      simp only
      rw [he, if_pos (List.length_range), beq_self_eq_true]
  refine ⟨?_, ?_⟩
  · rw [← key, hrw]
    by_cases h : sortedIsArange (d.flatMap Prod.snd) n = true
    · simp [h]
    · simp [h]
  · rw [hrw]
    by_cases h : sortedIsArange (d.flatMap Prod.snd) n = true
    · simp [h]
    · simp [h]

/-- **C121, limit.** With a single fiducial point the comparison is broadcast: duplicate names and a dictionary without any index pass. -/
theorem fidnames_one_point :
    fidNames 1 (.inr [("a", [0]), ("b", [0])]) = .ok [("a", [0]), ("b", [0])] ∧ fidNames 1 (.inr []) = .ok [] := by
  constructor <;> rfl

/-- Names that were given are as many as the objects. -/
def NamesOk (s : Cmd) : Prop := ∀ d, s.dnames = some d → d.length = s.nd

/-- **C121.** There are always as many object names as objects, in every state a user can reach. -/
theorem names_count (s : Cmd) (hs : Reachable s) : (getNames s).length = s.nd := by
  have key : NamesOk s := by
    induction hs with
    | new known order specs rows n fidname horder hrows s h =>
      intro d hd
      unfold create at h
      cases ht : toDicts known specs rows with
      | error e => rw [ht] at h; cases h
      | ok p =>
        rw [ht] at h
        simp only at h
        cases hf : fidNames n fidname with
        | error e => rw [hf] at h; cases h
        | ok d' => rw [hf] at h; cases h; cases hd
    | step s op hop _ ih =>
      cases op with
      | dataMap known specs rows n =>
        show NamesOk (orElse s _)
        cases hx : setDataMap known specs rows n s with
        | error e => exact ih
        | ok t =>
          unfold setDataMap at hx
          cases hd : toDicts known specs rows with
          | error e => rw [hd] at hx; cases hx
          | ok p =>
            rw [hd] at hx
            simp only at hx
            split at hx
            · cases hx
            · cases hx; intro d hd'; cases hd'
      | dataSeq rows n =>
        show NamesOk (orElse s _)
        cases hx : setDataSeq rows n s with
        | error e => exact ih
        | ok t =>
          unfold setDataSeq at hx
          split at hx
          · cases hx
          · cases hx; intro d hd'; cases hd'
      | locs v n =>
        show NamesOk (orElse s _)
        cases hx : setLocs v n s with
        | error e => exact ih
        | ok t =>
          unfold setLocs at hx
          cases v with
          | none => cases hx; exact ih
          | some arr =>
            simp only at hx
            split at hx
            · cases hx
            · split at hx
              · cases hx
              · cases hx; exact ih
      | names v =>
        show NamesOk (orElse s _)
        cases hx : setNames v s with
        | error e => exact ih
        | ok t =>
          unfold setNames at hx
          split at hx
          · cases hx
          · next hl => cases hx; intro d hd'; cases hd'; exact not_not.1 hl
      | groups v =>
        show NamesOk (orElse s _)
        cases hx : setGroups v s with
        | error e => exact ih
        | ok t =>
          unfold setGroups at hx
          cases v with
          | none => cases hx; exact ih
          | some arr =>
            simp only at hx
            split at hx
            · cases hx
            · cases hx; exact ih
      | center v =>
        show NamesOk (orElse s _)
        cases hx : setCen v s with
        | error e => exact ih
        | ok t =>
          unfold setCen at hx
          split at hx
          · cases hx; exact ih
          · cases hx; exact ih
          · cases hx; exact ih
          · cases hx
      | offsetbands v =>
        show NamesOk (orElse s _)
        cases hx : setOffBands v s with
        | error e => exact ih
        | ok t =>
          unfold setOffBands at hx
          cases v with
          | none => cases hx; exact ih
          | some l =>
            simp only at hx
            cases ha : argSels s l with
            | error e => rw [ha] at hx; cases hx
            | ok x => rw [ha] at hx; cases hx; exact ih
      | distmod v => exact ih
      | offsetweights v =>
        show NamesOk (orElse s _)
        cases hx : setWs v s with
        | error e => exact ih
        | ok t =>
          unfold setWs at hx
          cases v with
          | none => cases hx; exact ih
          | some w =>
            simp only at hx
            cases hb : s.offbands with
            | none =>
              rw [hb] at hx
              simp only at hx
              split at hx <;> cases hx
            | some l =>
              rw [hb] at hx
              simp only at hx
              split at hx
              · cases hx
              · cases hx; exact ih
      | locweight v => exact ih
      | clearOffsets => exact ih
      | getOffsets =>
        show NamesOk (getOffsets s).2
        unfold getOffsets
        split
        · exact ih
        · split
          · exact ih
          · split
            · exact ih
            · exact ih
  unfold getNames
  cases h : s.dnames with
  | none => simp
  | some d => exact key d h

/-- **C121, limit.** Group numbers are not dropped with the old data: after new data with another number of objects there are as many as before. -/
theorem groups_stale (s : Cmd) (g : List Int) (hg : g.length = s.nd) (rows : List (List ℝ)) (n : Nat)
    (hr : rows.length = s.names.length) :
    let t := run s [.groups (some g), .dataSeq rows n]
    t.dgrp = some g ∧ t.nd = n := by
  have h1 : step s (.groups (some g)) = { s with dgrp := some g } := by
    show orElse s (setGroups (some g) s) = _
    unfold setGroups
    simp only
    rw [if_neg (not_not.2 hg)]
    rfl
  show (step (step s (.groups (some g))) (.dataSeq rows n)).dgrp = _ ∧ (step (step s (.groups (some g))) (.dataSeq rows n)).nd = _
  rw [h1]
  show (orElse _ (setDataSeq rows n { s with dgrp := some g })).dgrp = _ ∧ (orElse _ (setDataSeq rows n { s with dgrp := some g })).nd = _
  unfold setDataSeq
  rw [if_neg (not_not.2 hr)]
  exact ⟨rfl, rfl⟩

/-- **C121, limit.** A colour given as a 2-tuple is taken as two separate bands, unlike the same colour given as a text. -/
theorem tuple_two_bands (s : Cmd) (b c : String) (hb : b ∈ s.names) (hc : c ∈ s.names) :
    (setOffBands (some [.tuple b c]) s).toOption.bind Cmd.offbands = some [.one b, .one c] ∧
    (setOffBands (some [.color b c]) s).toOption.bind Cmd.offbands = some [.pair b c] := by
  constructor <;> simp [setOffBands, argSels, argSel, hb, hc, Except.toOption]

/-- **C121, limit.** Weights cannot be set while all bands are used, whatever their number. -/
theorem weights_need_bands (s : Cmd) (h : s.offbands = none) (w : List ℝ) :
    setWs (some w) s = .error .value ∨ setWs (some w) s = .error .type := by
  unfold setWs
  simp only [h]
  by_cases hl : w.length ≠ s.names.length
  · left; rw [if_pos hl]
  · right; rw [if_neg hl]

/-- **C121, limit.** New data drop the weights even though the offset bands stay. -/
theorem data_drops_weights (s : Cmd) (rows : List (List ℝ)) (n : Nat) (hr : rows.length = s.names.length) :
    (step s (.dataSeq rows n)).offws = none ∧ (step s (.dataSeq rows n)).offbands = s.offbands := by
  show (orElse s (setDataSeq rows n s)).offws = none ∧ (orElse s (setDataSeq rows n s)).offbands = _
  unfold setDataSeq
  rw [if_neg (not_not.2 hr)]
  exact ⟨rfl, rfl⟩

theorem complete_none (s : Cmd) : ∀ l : List Sel, (∃ x ∈ l, (column s x).2 = none) → complete (l.map (column s)) = none
  | [], ⟨x, hx, _⟩ => by cases hx
  | y :: l, ⟨x, hx, h⟩ => by
    cases hc : column s y with
    | mk f d =>
      rw [List.map_cons, hc]
      cases d with
      | none => rfl
      | some d =>
        show (complete (l.map (column s))).map _ = none
        rcases List.mem_cons.1 hx with rfl | hx
        · rw [hc] at h; cases h
        · rw [complete_none s l ⟨x, hx, h⟩]; rfl

/-- **C121, limit.** A colour with one band that was not measured is not refused: every offset is then not a number. -/
theorem half_color_nan (s : Cmd) (l : List Sel) (o : List (Option ℝ)) (hl : s.offbands = some l) (b c : String)
    (hx : Sel.pair b c ∈ l) (hm : dataRow s b = none ∨ dataRow s c = none) (hc : calcOff s = .ok o) :
    o = List.replicate s.nd none := by
  unfold calcOff at hc
  cases hu : used s with
  | error e => rw [hu] at hc; cases hc
  | ok l' =>
    have : l' = l := by
      have := used_selection s l' hu
      rw [this]; unfold selection; rw [hl]
    subst this
    rw [hu] at hc
    simp only at hc
    split at hc
    · cases hc
    · split at hc
      · cases hc
      · have hn : complete (l'.map (column s)) = none := by
          refine complete_none s l' ⟨_, hx, ?_⟩
          show optSub (dataRow s b) (dataRow s c) = none
          rcases hm with h | h
          · rw [h]; rfl
          · rw [h]; cases dataRow s b <;> rfl
        rw [hn] at hc
        cases hc
        rfl

/-! ## Reading back what was set -/

theorem pick_range : ∀ (row : List ℝ), pick row (List.range row.length) = row := by
  intro row
  unfold pick
  refine List.ext_getElem (by simp) ?_
  intro i h1 h2
  simp [h2]

/-- **C120.** Without a name all fiducial points are returned, in the order given, moved by the distance modulus. -/
theorem fid_all (s : Cmd) (hs : Reachable s) (b : String) (e : Entry ℝ) (hb : look s.fid b = some e) (hm : e.mask = true) :
    getFidBand s b none = .ok (e.data.map (· + s.dmod)) := by
  have hl := (wf_reachable s hs).fidLen b e hb
  unfold getFidBand positions
  simp only [hb]
  rw [if_pos hm, ← hl, pick_range]

/-- **C120.** With a name the points of that name are returned, in the order of its indices. -/
theorem fid_named (s : Cmd) (b k : String) (e : Entry ℝ) (l : List Nat) (hb : look s.fid b = some e) (hm : e.mask = true)
    (hk : s.fidnames.lookup k = some l) :
    ∃ x, getFidBand s b (some k) = .ok x ∧ x.length = l.length ∧
      ∀ i < l.length, x.getD i 0 = e.data.getD (l.getD i 0) 0 + s.dmod := by
  refine ⟨(pick e.data l).map (· + s.dmod), ?_, by simp [pick], ?_⟩
  · unfold getFidBand positions
    simp only [hb, hk]
    rw [if_pos hm]
  · intro i hi
    rw [getD_map' _ _ _ (by simpa [pick] using hi)]
    simp [pick, hi]

/-- **C121.** An integer selects the band at that position of `bandnames`, a negative one counts from the end, and others are an
`IndexError`. -/
theorem band_by_index (s : Cmd) (i : Int) :
    (∀ n : Nat, i = n → (h : n < s.names.length) → argSel s (.int i) = .ok [.one s.names[n]]) ∧
    (∀ n : Nat, i = -(n + 1 : Nat) → (h : n < s.names.length) →
      argSel s (.int i) = .ok [.one (s.names[s.names.length - 1 - n]'(by omega))]) ∧
    (i ≥ s.names.length ∨ i < -(s.names.length : Int) → argSel s (.int i) = .error .index) := by
  have key : ∀ n : Nat, (if i < 0 then i + (s.names.length : Int) else i) = n → (h : n < s.names.length) →
      argSel s (.int i) = .ok [.one s.names[n]] := by
    intro n hn h
    simp only [argSel, nameAt, hn]
    rw [if_neg (by omega)]
    simp [h]
  refine ⟨?_, ?_, ?_⟩
  · intro n hn h
    exact key n (by rw [if_neg (by omega)]; exact hn) h
  · intro n hn h
    exact key (s.names.length - 1 - n) (by rw [if_pos (by omega)]; omega) (by omega)
  · intro h
    simp only [argSel, nameAt]
    by_cases hi : i < 0
    · rw [if_pos hi, if_pos (by omega)]
    · rw [if_neg hi, if_neg hi]
      have : s.names[i.toNat]? = none := List.getElem?_eq_none (by omega)
      rw [this]

/-- **C121.** Locations are accepted exactly if they have two or three components and one column for each object; they are then the ones
read back, and the centre read back is the one given, with 0 as third coordinate if there are only two. -/
theorem locations_set (s : Cmd) (arr : List (List ℝ)) (n : Nat) (x y z : ℝ) :
    (setLocs (some arr) n s = .ok { s with locs := some arr } ↔ (arr.length = 2 ∨ arr.length = 3) ∧ n = s.nd) ∧
    (¬ ((arr.length = 2 ∨ arr.length = 3) ∧ n = s.nd) → setLocs (some arr) n s = .error .value) ∧
    (step s (.center (some [x, y]))).cen = [x, y, 0] ∧ (step s (.center (some [x, y, z]))).cen = [x, y, z] ∧
    (step s (.center none)).cen = [0, 0, 0] := by
  have hbad : ¬ ((arr.length = 2 ∨ arr.length = 3) ∧ n = s.nd) → setLocs (some arr) n s = .error .value := by
    intro h
    unfold setLocs
    simp only
    by_cases h1 : arr.length < 2 ∨ arr.length > 3
    · rw [if_pos h1]
    · rw [if_neg h1]
      by_cases h2 : n ≠ s.nd
      · rw [if_pos h2]
      · exact absurd ⟨by omega, not_not.1 h2⟩ h
  refine ⟨⟨?_, ?_⟩, hbad, rfl, rfl, rfl⟩
  · intro h
    by_contra hc
    rw [hbad hc] at h
    cases h
  · rintro ⟨h1, h2⟩
    unfold setLocs
    simp only
    rw [if_neg (by omega), if_neg (not_not.2 h2)]

/-- **C121.** A single band that is selected but has no data, or no fiducial values, is refused when the offsets are computed, and so is a colour of
two such bands. -/
theorem unmeasured_refused (s : Cmd) (l : List Sel) (hl : s.offbands = some l) (x : Sel) (hx : x ∈ l)
    (hbad : ∀ b ∈ bandsOf x, dataMask s b = false ∨ fidMask s b = false) : calcOff s = .error .value := by
  have hno : selOk s x = false := by
    cases x with
    | one b =>
      rcases hbad b (by simp [bandsOf]) with h | h <;> simp [selOk, h]
    | pair b c =>
      have hb := hbad b (by simp [bandsOf])
      have hc := hbad c (by simp [bandsOf])
      rcases hb with h1 | h1 <;> rcases hc with h2 | h2 <;> simp [selOk, h1, h2]
  unfold calcOff used
  rw [hl]
  have hall : l.all (selOk s) = false := by
    rw [List.all_eq_false]
    exact ⟨x, hx, by simp [hno]⟩
  simp only [hall]
  rfl

/-- **C121.** After `data = {...}` the row of each band of the analyzer is the measured one of the table made from the dictionary (C117); a band that
is not in it, or was only made up for an underdetermined colour, has no data. -/
theorem data_stored (known : String → Bool) (specs : List Spec) (rows : List (List ℝ)) (n : Nat) (s t : Cmd)
    (h : setDataMap known specs rows n s = .ok t) (b : String) (hb : b ∈ s.names) :
    ∃ u w, toDicts known specs rows = .ok (u, w) ∧
      (∀ row, look u b = some ⟨row, true⟩ → dataRow t b = some row ∧ dataMask t b = true) ∧
      (∀ row, look u b = some ⟨row, false⟩ → dataRow t b = none ∧ dataMask t b = false) ∧
      (look u b = none → dataRow t b = none ∧ dataMask t b = false) ∧ t.nd = n ∧ t.names = s.names := by
  unfold setDataMap at h
  cases hd : toDicts known specs rows with
  | error e => rw [hd] at h; cases h
  | ok p =>
    obtain ⟨u, w⟩ := p
    rw [hd] at h
    simp only at h
    split at h
    · cases h
    · cases h
      have hi : s.names.idxOf b < s.names.length := List.idxOf_lt_length_of_mem hb
      have hget : s.names[s.names.idxOf b]? = some b := by
        rw [List.getElem?_eq_getElem hi, List.getElem_idxOf]
      refine ⟨u, w, rfl, ?_, ?_, ?_, rfl, rfl⟩
      · intro row hr
        refine ⟨?_, ?_⟩
        · simp [dataRow, afterData, mapData, List.getD_eq_getElem?_getD, List.getElem?_map, hget, hr]
        · simp [dataMask, afterData, mapData, List.getD_eq_getElem?_getD, List.getElem?_map, hget, hr]
      · intro row hr
        refine ⟨?_, ?_⟩
        · simp [dataRow, afterData, mapData, List.getD_eq_getElem?_getD, List.getElem?_map, hget, hr]
        · simp [dataMask, afterData, mapData, List.getD_eq_getElem?_getD, List.getElem?_map, hget, hr]
      · intro hr
        refine ⟨?_, ?_⟩
        · simp [dataRow, afterData, mapData, List.getD_eq_getElem?_getD, List.getElem?_map, hget, hr]
        · simp [dataMask, afterData, mapData, List.getD_eq_getElem?_getD, List.getElem?_map, hget, hr]

/-- **C121.** New data drop the locations and the names. -/
theorem data_drops_locations (s : Cmd) (rows : List (List ℝ)) (n : Nat) (hr : rows.length = s.names.length) :
    (step s (.dataSeq rows n)).locs = none ∧ getNames (step s (.dataSeq rows n)) = (List.range n).map (fun i => toString (i + 1)) := by
  show (orElse s (setDataSeq rows n s)).locs = none ∧ getNames (orElse s (setDataSeq rows n s)) = _
  unfold setDataSeq
  rw [if_neg (not_not.2 hr)]
  exact ⟨rfl, rfl⟩

/-! ## A case that meets the hypotheses of C118 -/

theorem keys_order (t : Table ℝ) (b : String) : b ∈ t.map Prod.fst ↔ (look t b).isSome := by
  unfold look
  induction t with
  | nil => simp
  | cons p t ih =>
    obtain ⟨c, e⟩ := p
    rw [List.map_cons, List.mem_cons, List.lookup_cons, ih]
    by_cases h : b = c
    · simp [h]
    · have : (b == c) = false := by simpa using h
      simp [h, this]

/-- A new analyzer for the band r with one fiducial point 10. -/
noncomputable def fresh1 : Cmd :=
  { names := ["r"], fid := [("r", ⟨[10], true⟩)], nfid := 1, fidnames := [("fiducial", [0])], dmod := 0, data := none,
    datamask := [false], nd := 0, cen := [0, 0, 0], locs := none, dnames := none, dgrp := none, offsets := none,
    offbands := none, offws := none, locw := some 1 }

theorem fresh1_reachable : Reachable fresh1 := by
  refine Reachable.new (fun _ => true) (fun t => t.map Prod.fst) [.band "r"] [[10]] 1 (.inl "fiducial") keys_order (by simp) fresh1 ?_
  rfl

/-- One object with magnitude 10. -/
theorem demo_hypotheses :
    let s := step fresh1 (.dataSeq [[10]] 1)
    Reachable s ∧ s.offsets = none ∧ (getOffsets s).1 = .ok [some 0] ∧ (∀ x ∈ selection s, ∀ b ∈ bandsOf x, Measured s b) ∧
      selection s = [.one "r"] ∧ (∀ w, s.locw = some w → 0 ≤ w) := by
  have hs : step fresh1 (.dataSeq [[10]] 1) = { demo with locs := none } := rfl
  have hu : used { demo with locs := none } = .ok [.one "r"] := demo_used _ rfl rfl rfl rfl
  have hsel := used_selection _ _ hu
  refine ⟨Reachable.step _ _ (by simp [OpOk]) fresh1_reachable, rfl, ?_, ?_, ?_, ?_⟩
  · rw [hs]
    have hc : calcOff { demo with locs := none } = .ok [some 0] := by
      unfold calcOff
      rw [hu]
      have hcol : column { demo with locs := none } (.one "r") = ([10 + 0], some [10]) := by
        unfold column fidRow dataRow look demo
        simp
      simp only [List.map_cons, List.map_nil, hcol, complete]
      rw [if_neg (by simp [demo]), if_neg (by simp [demo, weightsOf])]
      simp only [Option.map_some]
      rw [if_neg (by simp [demo, weightsOf, badWeight])]
      simp [demo, weightsOf, weighted, weight, cmdSq, sumSq, sqTerm, lmin, locTerm, root]
    rw [getOffsets_calc _ [some [10]] [some 0] rfl rfl hc]
  · rw [hs, ← hsel]
    intro x hx b hb
    rw [List.mem_singleton.1 hx] at hb
    rw [List.mem_singleton.1 hb]
    unfold Measured dataRow demo
    simp
  · rw [hs, ← hsel]
  · intro w hw
    have : w = 1 := by
      have h1 : some (1 : ℝ) = some w := hw
      cases h1; rfl
    rw [this]; norm_num

end Verif.Cmd

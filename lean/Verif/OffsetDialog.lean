import Verif.CmdLaws

/-!
# The window of offset settings (astropysics/gui/spectarget.py 75-106, 496-498) (C244)

The dialog over the analyzer model of Verif.Cmd.  The texts in the window are given already split, as there.  Divisions are exact; no weight and no scale is zero where a theorem
speaks about reciprocals (numpy would give an infinity, and back).
-/

namespace Verif.OffsetDialog

open Verif.Cmd

/-- The fields of the window. -/
structure Dialog where
  bands : List Arg
  scales : List ℝ
  loc : ℝ

/-- `offsetbands` as it is read, phot.py 1552-1555: a colour is shown as a text. -/
def text : Sel → Arg
  | .one b => .name b
  | .pair b c => .color b c

/-- `offsetweights` as it is read, phot.py 1656-1660: without weights `len(self._offbands)`, which fails for None. -/
def getWs (s : Cmd) : Except Err (List ℝ) :=
  match s.offws with
  | some w => .ok w
  | none => match s.offbands with
    | none => .error .type
    | some l => .ok (List.replicate l.length 1)

open Classical in
/-- `1.0/x if x != 0 else 0`, spectarget.py 82 and 106. -/
noncomputable def recip (x : ℝ) : ℝ := if x ≠ 0 then 1 / x else 0

/-- `OffsetDialog(cmda,st)`, spectarget.py 101-106, and `locweight` as it is read, phot.py 1681-1684. -/
noncomputable def openDialog (s : Cmd) : Except Err Dialog :=
  match getWs s with
  | .error e => .error e
  | .ok w => .ok { bands := (s.offbands.getD []).map text, scales := w.map (fun x => 1 / x), loc := recip (s.locw.getD 0) }

/-- `ODHandler.apply`, spectarget.py 78-83: the analyzer afterwards, and whether the priorities are computed anew. -/
noncomputable def applyDialog (d : Dialog) (s : Cmd) : Cmd × Except Err Unit :=
  match setOffBands (some d.bands) s with
  | .error e => (s, .error e)
  | .ok s => match setWs (some (d.scales.map (fun x => 1 / x))) s with
    | .error e => (s, .error e)
    | .ok s => match setLocW (some (recip d.loc)) s with
      | .error e => (s, .error e)
      | .ok s => (s, .ok ())

/-- `closed`, spectarget.py 85-88. -/
noncomputable def close (ok : Bool) (d : Dialog) (s : Cmd) : Cmd × Except Err Unit := if ok = true then applyDialog d s else (s, .ok ())

theorem recip_recip (x : ℝ) : recip (recip x) = x := by
  unfold recip
  by_cases h : x = 0
  · simp [h]
  · rw [if_pos h, if_pos (one_div_ne_zero h), one_div_one_div]

theorem argSel_text (s : Cmd) (x : Sel) (h : ∀ b ∈ bandsOf x, b ∈ s.names) : argSel s (text x) = .ok [x] := by
  cases x with
  | one b => simp [text, argSel, h b (by simp [bandsOf])]
  | pair b c => simp [text, argSel, h b (by simp [bandsOf]), h c (by simp [bandsOf])]

theorem argSels_text (s : Cmd) : ∀ l : List Sel, (∀ x ∈ l, ∀ b ∈ bandsOf x, b ∈ s.names) → argSels s (l.map text) = .ok l
  | [], _ => rfl
  | x :: l, h => by
    rw [List.map_cons, argSels, argSel_text s x (h x List.mem_cons_self), argSels_text s l fun y hy => h y (List.mem_cons_of_mem _ hy)]
    rfl

/-- **C244.** The window opens exactly if bands for the offsets have been chosen; with the default, all bands, it fails with a TypeError. -/
theorem opens (s : Cmd) (hs : Reachable s) : (s.offbands = none → openDialog s = .error .type) ∧
    (∀ l, s.offbands = some l → openDialog s = .ok ⟨l.map text, (s.offws.getD (List.replicate l.length 1)).map (fun x => 1 / x), recip (s.locw.getD 0)⟩) := by
  have hw := wf_reachable s hs
  refine ⟨fun h => ?_, fun l h => ?_⟩
  · have : s.offws = none := by
      cases e : s.offws with
      | none => rfl
      | some w => obtain ⟨l, hl, -⟩ := hw.ws w e; rw [h] at hl; cases hl
    simp [openDialog, getWs, this, h]
  · cases e : s.offws <;> simp [openDialog, getWs, e, h]

theorem calcOff_congr (s t : Cmd) (hu : used t = used s) (hn : t.nfid = s.nfid) (hd : t.nd = s.nd) (hw : ∀ l, used s = .ok l → weightsOf t l.length = weightsOf s l.length)
    (hc : column t = column s) (hl : ∀ k, locTerm t k = locTerm s k) : calcOff t = calcOff s := by
  unfold calcOff
  rw [hu]
  cases e : used s with
  | error => rfl
  | ok l =>
    have h := hw l e
    simp only [hc, hl, hn, hd]
    generalize weightsOf t l.length = W at h ⊢
    subst h
    rfl

/-- **C244.** Opening the window and pressing OK changes nothing that counts: bands and weights are what they were (the default weights being written out), and the offsets that will be computed
are the same. -/
theorem roundtrip (s : Cmd) (hs : Reachable s) (d : Dialog) (h : openDialog s = .ok d) :
    ∃ l, s.offbands = some l ∧ applyDialog d s = ({ s with offsets := none, offws := some (s.offws.getD (List.replicate l.length 1)), locw := some (s.locw.getD 0) }, .ok ()) ∧
      calcOff (applyDialog d s).1 = calcOff s := by
  have hw := wf_reachable s hs
  cases hl : s.offbands with
  | none => rw [(opens s hs).1 hl] at h; cases h
  | some l =>
    rw [(opens s hs).2 l hl] at h
    cases h
    have hlen : (s.offws.getD (List.replicate l.length 1)).length = l.length := by
      cases e : s.offws with
      | none => simp
      | some w => obtain ⟨l', hl', h'⟩ := hw.ws w e; rw [hl] at hl'; cases hl'; simpa using h'
    have happ : applyDialog ⟨l.map text, (s.offws.getD (List.replicate l.length 1)).map (fun x => 1 / x), recip (s.locw.getD 0)⟩ s =
        ({ s with offsets := none, offws := some (s.offws.getD (List.replicate l.length 1)), locw := some (s.locw.getD 0) }, .ok ()) := by
      have h1 := argSels_text s l (hw.sel l hl)
      simp only [applyDialog, setOffBands, h1, setWs, List.length_map, hlen, ne_eq, not_true_eq_false, if_false, setLocW, recip_recip, List.map_map]
      have : ((fun x : ℝ => 1 / x) ∘ fun x => 1 / x) = id := by funext x; simp
      rw [this, List.map_id, hl]
    refine ⟨l, rfl, happ.trans (by rw [hl]), ?_⟩
    rw [happ]
    have hu : used { s with offsets := none, offws := some (s.offws.getD (List.replicate l.length 1)), locw := some (s.locw.getD 0) } = used s := rfl
    have hloc : ∀ k, locTerm { s with offsets := none, offws := some (s.offws.getD (List.replicate l.length 1)), locw := some (s.locw.getD 0) } k = locTerm s k := by
      intro k
      unfold locTerm
      cases s.locw <;> cases s.locs <;> simp
    have hcol : column { s with offsets := none, offws := some (s.offws.getD (List.replicate l.length 1)), locw := some (s.locw.getD 0) } = column s := by
      funext x; cases x <;> rfl
    have huse : ∀ l', used s = .ok l' → l' = l := by
      intro l' h
      unfold used at h
      rw [hl] at h
      simp only at h
      split at h
      · cases h; rfl
      · cases h
    refine calcOff_congr _ _ hu rfl rfl (fun l' e => ?_) hcol hloc
    obtain rfl := huse l' e
    rfl

/-- **C244.** Cancelling leaves the analyzer alone. -/
theorem cancel (d : Dialog) (s : Cmd) : close false d s = (s, .ok ()) := rfl

/-- **C244.** OK with acceptable bands and as many scales takes everything over; with another number of scales it fails with a ValueError after the bands have been taken and the weights
forgotten; with a band that is not acceptable it fails and changes nothing. -/
theorem applied (d : Dialog) (s : Cmd) :
    (∀ l, argSels s d.bands = .ok l → d.scales.length = l.length →
      close true d s = ({ s with offbands := some l, offws := some (d.scales.map fun x => x⁻¹), locw := some (recip d.loc), offsets := none }, .ok ())) ∧
    (∀ l, argSels s d.bands = .ok l → d.scales.length ≠ l.length → close true d s = ({ s with offbands := some l, offws := none, offsets := none }, .error .value)) ∧
    (∀ e, argSels s d.bands = .error e → close true d s = (s, .error e)) := by
  refine ⟨fun l h hl => ?_, fun l h hl => ?_, fun e h => ?_⟩
  · simp [close, applyDialog, setOffBands, h, setWs, hl, setLocW]
  · simp [close, applyDialog, setOffBands, h, setWs, hl]
  · simp [close, applyDialog, setOffBands, h]

/-- **C244.** The location weight is one over the scale, and none for scale zero. -/
theorem recip_spec (x : ℝ) : (x ≠ 0 → recip x * x = 1) ∧ recip 0 = 0 := by
  constructor
  · intro h; unfold recip; rw [if_pos h]; field_simp
  · simp [recip]

/-! ## Concrete cases -/

/-- An analyzer with two bands and a colour among the offsets. -/
def two : Cmd :=
  { names := ["g", "r"], fid := [("g", ⟨[10], true⟩), ("r", ⟨[11], true⟩)], nfid := 1, fidnames := [], dmod := 0, data := none, datamask := [false, false],
    nd := 0, cen := [0, 0, 0], locs := none, dnames := none, dgrp := none, offsets := none, offbands := some [.one "g", .pair "g" "r"], offws := none, locw := some 1 }

example : argSels two ([.one "g", .pair "g" "r"].map text) = .ok [.one "g", .pair "g" "r"] := argSels_text two _ (by decide)
example : close true ⟨[.name "g"], [2, 3], 4⟩ two = ({ two with offbands := some [.one "g"], offws := none, offsets := none }, .error .value) :=
  (applied ⟨[.name "g"], [2, 3], 4⟩ two).2.1 [.one "g"] (argSels_text two [.one "g"] (by decide)) (by decide)

/-- A reachable analyzer for which the window opens. -/
example : let s := step fresh1 (.offsetbands (some [.name "r"]))
    Reachable s ∧ openDialog s = .ok ⟨[.name "r"], [1 / 1], recip 1⟩ ∧ openDialog fresh1 = .error .type := by
  have hr : Reachable (step fresh1 (.offsetbands (some [.name "r"]))) := Reachable.step _ _ trivial fresh1_reachable
  exact ⟨hr, (opens _ hr).2 [.one "r"] rfl, (opens _ fresh1_reachable).1 rfl⟩

end Verif.OffsetDialog

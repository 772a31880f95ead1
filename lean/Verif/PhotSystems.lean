import Mathlib.Data.List.Basic
import Verif.PhotBand

/-!
# Zero points (astropysics/phot.py 816-870) (C186)

The bands are the objects in the registry, named here by their place; `computeFlux`, `computeMag` and `computeZptFromSpectrum` are those of PhotBand.lean.
-/

namespace Verif.PhotSystems

open Verif.PhotBand Verif.Phot

/-! ## Zero points -/

/-- `for b in bands: ...` where the body changes the band or raises: the bands afterwards and the exception. -/
def loop (f : BandInfo → Except PhotBand.Err BandInfo) : List ℕ → List BandInfo → List BandInfo × Option PhotBand.Err
  | [], s => (s, none)
  | i :: l, s => match s[i]? with
    | none => loop f l s
    | some b => match f b with
      | .error e => (s, some e)
      | .ok b' => loop f l (s.set i b')

/-- What `compute_band_zpts` is given. -/
inductive SpecOrScale
  | scale (k : ℝ)
  | spec (s : Spec)

/-- `compute_band_zpts`, phot.py 816-830. -/
noncomputable def computeZpts (sort : Samples → Samples) (simps : Samples → ℝ) (x : SpecOrScale) (which : List ℕ) (s : List BandInfo) : List BandInfo × Option PhotBand.Err :=
  match x with
  | .scale k => loop (fun b => .ok { b with zpt := b.zpt * k }) which s
  | .spec sp => loop (fun b => computeZpt sort simps b sp none true) which s

/-- `str.lower`. -/
def lowerC (c : Char) : Char := if 65 ≤ c.toNat ∧ c.toNat ≤ 90 then Char.ofNat (c.toNat + 32) else c

/-- `'vega' in s`. -/
def hasVega : List Char → Bool
  | [] => false
  | c :: t => ['v', 'e', 'g', 'a'].isPrefixOf (c :: t) || hasVega t

/-- `s.replace('vega','')`; a round for each character is enough. -/
def dropVega : ℕ → List Char → List Char
  | 0, s => s
  | _, [] => []
  | fuel + 1, c :: t => if ['v', 'e', 'g', 'a'].isPrefixOf (c :: t) then dropVega fuel ((c :: t).drop 4) else c :: dropVega fuel t

/-- The number in the name of the system, phot.py 857-860. -/
noncomputable def offset (float : List Char → Option ℝ) (system : List Char) : ℝ := (float (dropVega system.length (system.map lowerC))).getD 0

/-- `set_zeropoint_system`, phot.py 832-870: `ab` is the flux of the AB spectrum at a position in the unit of a band, `vega` the samples of the model of Vega in that unit. -/
noncomputable def setSystem (sort : Samples → Samples) (simps : Samples → ℝ) (float : List Char → Option ℝ) (ab : BandInfo → ℝ → ℝ) (vega : BandInfo → Samples)
    (system : List Char) (which : List ℕ) (s : List BandInfo) : List BandInfo × Option PhotBand.Err :=
  if system = ['A', 'B'] then loop (fun b => computeZpt sort simps b (.spectrum (b.pts.map fun p => (p.1, ab b p.1))) (some true) true) which s
  else if hasVega (system.map lowerC) then
    loop (fun b => computeZpt sort simps b (.spectrum (mapS (fun v => v * (10 : ℝ) ^ (offset float system / 2.5)) (vega b))) none true) which s
  else (s, some .value)

/-- Two bands differ in the zero point only. -/
def SameBand (b b' : BandInfo) : Prop := b' = { b with zpt := b'.zpt }

theorem SameBand.refl (b : BandInfo) : SameBand b b := rfl

theorem SameBand.trans {a b c : BandInfo} (h1 : SameBand a b) (h2 : SameBand b c) : SameBand a c := by
  unfold SameBand at *
  rw [h2, h1]

theorem flux_same {b b' : BandInfo} (h : SameBand b b') (sort : Samples → Samples) (simps : Samples → ℝ) (sp : Spec) (al : Option Bool) (ck : Bool) :
    computeFlux sort simps b' sp al ck = computeFlux sort simps b sp al ck := by
  rw [h]; cases sp <;> rfl

theorem mag_same (b : BandInfo) (z : ℝ) (sort : Samples → Samples) (simps : Samples → ℝ) (sp : Spec) (al : Option Bool) (ck : Bool) :
    computeMag sort simps { b with zpt := z } sp al ck = (computeFlux sort simps b sp al ck).map fun f => fluxToMag (f / z) := by
  unfold computeMag
  rw [flux_same (b := b) (b' := { b with zpt := z }) rfl]
  cases computeFlux sort simps b sp al ck <;> rfl

/-- A loop that changes zero points only, in a way that does not depend on them: afterwards the bands named have the new zero point, the others are as before. -/
theorem loop_ok (f : BandInfo → Except PhotBand.Err BandInfo) (z : BandInfo → ℝ) (hz : ∀ b b', SameBand b b' → z b' = z b)
    (hf : ∀ b b', f b = .ok b' → b' = { b with zpt := z b }) : ∀ (which : List ℕ) (s s' : List BandInfo), loop f which s = (s', none) →
    s'.length = s.length ∧ (∀ i b, i ∉ which → s[i]? = some b → s'[i]? = some b) ∧ (∀ i b, i ∈ which → s[i]? = some b → s'[i]? = some { b with zpt := z b })
  | [], s, s', h => by
    simp only [loop, Prod.mk.injEq, and_true] at h
    subst h
    exact ⟨rfl, fun _ _ _ h => h, fun i b h => absurd h (by simp)⟩
  | j :: l, s, s', h => by
    rw [loop] at h
    cases hj : s[j]? with
    | none =>
      rw [hj] at h
      obtain ⟨h1, h2, h3⟩ := loop_ok f z hz hf l s s' h
      refine ⟨h1, fun i b hi hb => h2 i b (fun h => hi (List.mem_cons_of_mem _ h)) hb, fun i b hi hb => ?_⟩
      rcases List.mem_cons.1 hi with rfl | hi
      · rw [hj] at hb; simp at hb
      · exact h3 i b hi hb
    | some c =>
      rw [hj] at h
      dsimp only at h
      cases hc : f c with
      | error e => rw [hc] at h; simp at h
      | ok c' =>
        rw [hc] at h
        dsimp only at h
        have hcc := hf c c' hc
        obtain ⟨h1, h2, h3⟩ := loop_ok f z hz hf l _ s' h
        have hlen : j < s.length := by
          by_contra hh; rw [List.getElem?_eq_none (by omega)] at hj; simp at hj
        rw [List.length_set] at h1
        refine ⟨h1, ?_, ?_⟩
        · intro i b hi hb
          simp only [List.mem_cons, not_or] at hi
          exact h2 i b hi.2 (by rw [List.getElem?_set_ne (fun e => hi.1 e.symm)]; exact hb)
        · intro i b hi hb
          by_cases hij : i = j
          · subst hij
            rw [hj] at hb
            simp only [Option.some.injEq] at hb
            subst hb
            have hset : (s.set i c')[i]? = some c' := by rw [List.getElem?_set_self hlen]
            by_cases hil : i ∈ l
            · rw [h3 i c' hil hset]
              have hs : SameBand c c' := by rw [hcc]; rfl
              rw [hz c c' hs, hcc]
            · rw [h2 i c' hil hset, hcc]
          · have hil : i ∈ l := by
              rcases List.mem_cons.1 hi with h | h
              · exact absurd h hij
              · exact h
            exact h3 i b hil (by rw [List.getElem?_set_ne (fun e => hij e.symm)]; exact hb)

/-- The flux, 0 for an exception. -/
noncomputable def fluxOr (sort : Samples → Samples) (simps : Samples → ℝ) (b : BandInfo) (sp : Spec) (al : Option Bool) (ck : Bool) : ℝ :=
  match computeFlux sort simps b sp al ck with
  | .ok f => f
  | .error _ => 0

theorem zpt_flux {sort : Samples → Samples} {simps : Samples → ℝ} {b b' : BandInfo} {sp : Spec} {al : Option Bool} {ck : Bool} (h : computeZpt sort simps b sp al ck = .ok b') :
    computeFlux sort simps b sp al ck = .ok b'.zpt ∧ b' = { b with zpt := fluxOr sort simps b sp al ck } := by
  unfold computeZpt at h
  unfold fluxOr
  cases hf : computeFlux sort simps b sp al ck with
  | error e => rw [hf] at h; simp at h
  | ok f =>
    rw [hf] at h
    simp only [Except.ok.injEq] at h
    subst h
    exact ⟨rfl, rfl⟩

/-- C186.  A spectrum as zero point: afterwards it has magnitude 0 in each of the bands named (if its flux is not 0), whose other data are unchanged; other bands are unchanged. -/
theorem spectrum_zero (sort : Samples → Samples) (simps : Samples → ℝ) (sp : Spec) (which : List ℕ) (s s' : List BandInfo)
    (h : computeZpts sort simps (.spec sp) which s = (s', none)) :
    s'.length = s.length ∧ (∀ i b, i ∉ which → s[i]? = some b → s'[i]? = some b) ∧
    ∀ i b, i ∈ which → s[i]? = some b → ∃ b', s'[i]? = some b' ∧ SameBand b b' ∧ (b'.zpt ≠ 0 → computeMag sort simps b' sp none true = .ok 0) := by
  have hz : ∀ b b', SameBand b b' → fluxOr sort simps b' sp none true = fluxOr sort simps b sp none true := by
    intro b b' hb; unfold fluxOr; rw [flux_same hb]
  obtain ⟨h1, h2, h3⟩ := loop_ok _ (fun b => fluxOr sort simps b sp none true) hz (fun b b' hb => (zpt_flux hb).2) which s s' h
  refine ⟨h1, h2, fun i b hi hb => ⟨_, h3 i b hi hb, rfl, fun hne => ?_⟩⟩
  rw [mag_same]
  dsimp only at hne
  unfold fluxOr at hne ⊢
  cases hf : computeFlux sort simps b sp none true with
  | error e => rw [hf] at hne; simp at hne
  | ok f =>
    rw [hf] at hne
    dsimp only at hne
    simp only [Except.map, div_self hne]
    simp [fluxToMag]

/-- C186.  A number as scale: every zero point is multiplied by it once for each time the band is named, other data and bands are unchanged; so for bands named once magnitudes
rise by 2.5 log10 of it. -/
theorem scale_exact (sort : Samples → Samples) (simps : Samples → ℝ) (k : ℝ) (which : List ℕ) (s : List BandInfo) :
    ∃ s' : List BandInfo, computeZpts sort simps (.scale k) which s = (s', none) ∧ s'.length = s.length ∧
    ∀ (i : ℕ) (b : BandInfo), s[i]? = some b → s'[i]? = some { b with zpt := b.zpt * k ^ (which.count i) } := by
  unfold computeZpts
  dsimp only
  induction which generalizing s with
  | nil => exact ⟨s, rfl, rfl, fun i b hb => by simpa using hb⟩
  | cons j l ih =>
    rw [loop]
    cases hj : s[j]? with
    | none =>
      obtain ⟨s', h1, h2, h3⟩ := ih s
      refine ⟨s', h1, h2, fun i b hb => ?_⟩
      have hij : ¬ j = i := by rintro rfl; rw [hj] at hb; simp at hb
      rw [h3 i b hb, List.count_cons]
      simp [hij]
    | some c =>
      dsimp only
      have hlen : j < s.length := by
        by_contra hh; rw [List.getElem?_eq_none (by omega)] at hj; simp at hj
      obtain ⟨s', h1, h2, h3⟩ := ih (s.set j { c with zpt := c.zpt * k })
      rw [List.length_set] at h2
      refine ⟨s', h1, h2, fun i b hb => ?_⟩
      by_cases hij : j = i
      · subst hij
        rw [hj] at hb
        simp only [Option.some.injEq] at hb
        subst hb
        rw [h3 j { c with zpt := c.zpt * k } (by rw [List.getElem?_set_self hlen]), List.count_cons]
        simp only [beq_self_eq_true, if_true, pow_succ]
        congr 2; ring
      · rw [h3 i b (by rw [List.getElem?_set_ne hij]; exact hb), List.count_cons]
        simp [hij]

theorem scale_magnitudes (sort : Samples → Samples) (simps : Samples → ℝ) (k : ℝ) (hk : 0 < k) (b : BandInfo) (hz : 0 < b.zpt) (sp : Spec) (al : Option Bool) (ck : Bool) (f : ℝ)
    (hf : computeFlux sort simps b sp al ck = .ok f) (hfp : 0 < f) :
    ∃ m, computeMag sort simps b sp al ck = .ok m ∧ computeMag sort simps { b with zpt := b.zpt * k } sp al ck = .ok (m + 2.5 * Real.logb 10 k) := by
  refine ⟨fluxToMag (f / b.zpt), by simp [computeMag, hf], ?_⟩
  rw [mag_same, hf]
  simp only [Except.map]
  rw [(pogson 0 _).1, (pogson 0 _).1, ← div_div, Real.logb_div (by positivity) hk.ne']
  congr 1
  ring

theorem loop_zero (sort : Samples → Samples) (simps : Samples → ℝ) (F : BandInfo → Spec) (hF : ∀ b b', SameBand b b' → F b' = F b) (al : Option Bool) (which : List ℕ)
    (s s' : List BandInfo) (h : loop (fun b => computeZpt sort simps b (F b) al true) which s = (s', none)) :
    (∀ i b, i ∉ which → s[i]? = some b → s'[i]? = some b) ∧
    ∀ i b, i ∈ which → s[i]? = some b → ∃ b', s'[i]? = some b' ∧ SameBand b b' ∧ (b'.zpt ≠ 0 → computeMag sort simps b' (F b) al true = .ok 0) := by
  have hz : ∀ b b', SameBand b b' → fluxOr sort simps b' (F b') al true = fluxOr sort simps b (F b) al true := by
    intro b b' hb; unfold fluxOr; rw [flux_same hb, hF b b' hb]
  obtain ⟨_, h2, h3⟩ := loop_ok _ (fun b => fluxOr sort simps b (F b) al true) hz (fun b b' hb => (zpt_flux hb).2) which s s' h
  refine ⟨h2, fun i b hi hb => ⟨_, h3 i b hi hb, rfl, fun hne => ?_⟩⟩
  rw [mag_same]
  dsimp only at hne
  unfold fluxOr at hne ⊢
  cases hf : computeFlux sort simps b (F b) al true with
  | error e => rw [hf] at hne; simp at hne
  | ok f =>
    rw [hf] at hne
    dsimp only at hne
    simp only [Except.map, div_self hne]
    simp [fluxToMag]

/-- C186.  AB: afterwards the AB spectrum on the positions of the band has magnitude 0 in each band named; other bands are unchanged. -/
theorem ab_zero (sort : Samples → Samples) (simps : Samples → ℝ) (float : List Char → Option ℝ) (ab : BandInfo → ℝ → ℝ) (hab : ∀ b b', SameBand b b' → ab b' = ab b)
    (vega : BandInfo → Samples) (which : List ℕ) (s s' : List BandInfo) (h : setSystem sort simps float ab vega ['A', 'B'] which s = (s', none)) :
    (∀ i b, i ∉ which → s[i]? = some b → s'[i]? = some b) ∧
    ∀ i b, i ∈ which → s[i]? = some b → ∃ b', s'[i]? = some b' ∧ SameBand b b' ∧
      (b'.zpt ≠ 0 → computeMag sort simps b' (.spectrum (b.pts.map fun p => (p.1, ab b p.1))) (some true) true = .ok 0) := by
  have e : setSystem sort simps float ab vega ['A', 'B'] which s =
      loop (fun b => computeZpt sort simps b ((fun b : BandInfo => Spec.spectrum (b.pts.map fun p => (p.1, ab b p.1))) b) (some true) true) which s := by
    unfold setSystem
    rw [if_pos rfl]
  rw [e] at h
  have hF : ∀ b b' : BandInfo, SameBand b b' → (fun b : BandInfo => Spec.spectrum (b.pts.map fun p => (p.1, ab b p.1))) b' =
      (fun b : BandInfo => Spec.spectrum (b.pts.map fun p => (p.1, ab b p.1))) b := by
    intro b b' hb
    dsimp only
    have hp : b'.pts = b.pts := by rw [hb]
    rw [hp, hab b b' hb]
  exact loop_zero sort simps _ hF (some true) which s s' h

/-- C186.  Vega: afterwards the model of Vega has the magnitude that the name of the system says (0 if none) in each band named; other bands are unchanged. -/
theorem vega_offset (sort : Samples → Samples) (hk : ∀ f l, sort (mapS f l) = mapS f (sort l)) (simps : Samples → ℝ)
    (hi : ∀ (c : ℝ) l, simps (mapS (fun v => c * v) l) = c * simps l) (float : List Char → Option ℝ) (ab : BandInfo → ℝ → ℝ)
    (vega : BandInfo → Samples) (hv : ∀ b b', SameBand b b' → vega b' = vega b) (system : List Char) (hs : hasVega (system.map lowerC) = true)
    (which : List ℕ) (s s' : List BandInfo) (h : setSystem sort simps float ab vega system which s = (s', none)) :
    (∀ i b, i ∉ which → s[i]? = some b → s'[i]? = some b) ∧
    ∀ i b, i ∈ which → s[i]? = some b → ∃ b', s'[i]? = some b' ∧ SameBand b b' ∧
      ∀ f, computeFlux sort simps b (.spectrum (vega b)) none true = .ok f → 0 < f → computeMag sort simps b' (.spectrum (vega b)) none true = .ok (offset float system) := by
  unfold setSystem at h
  have hne : system ≠ ['A', 'B'] := by rintro rfl; revert hs; decide
  rw [if_neg hne, if_pos hs] at h
  set k : ℝ := (10 : ℝ) ^ (offset float system / 2.5) with hkdef
  have hkp : 0 < k := by positivity
  have hz : ∀ b b', SameBand b b' → fluxOr sort simps b' (.spectrum (mapS (fun v => v * k) (vega b'))) none true =
      fluxOr sort simps b (.spectrum (mapS (fun v => v * k) (vega b))) none true := by
    intro b b' hb; unfold fluxOr; rw [flux_same hb, hv b b' hb]
  obtain ⟨_, h2, h3⟩ := loop_ok _ (fun b => fluxOr sort simps b (.spectrum (mapS (fun v => v * k) (vega b))) none true) hz (fun b b' hb => (zpt_flux hb).2) which s s' h
  refine ⟨h2, fun i b hi' hb => ⟨_, h3 i b hi' hb, rfl, fun f hf hfp => ?_⟩⟩
  have hscale : computeFlux sort simps b (.spectrum (mapS (fun v => v * k) (vega b))) none true = .ok (k * f) := by
    have h4 := flux_scale sort hk simps hi b (.spectrum (vega b)) none true k
    simp only [Spec.scale] at h4
    have e : (fun v : ℝ => v * k) = fun v => k * v := by funext v; ring
    rw [e, h4, hf]
    rfl
  rw [mag_same, hf]
  unfold fluxOr
  rw [hscale]
  simp only [Except.map]
  rw [(pogson 0 _).1]
  congr 1
  have : f / (k * f) = k⁻¹ := by field_simp
  rw [this, Real.logb_inv, hkdef, Real.logb_rpow (by norm_num) (by norm_num)]
  ring

/-- C186.  The name of the system: exactly `AB`, or containing `vega` in any case; everything else is ValueError and changes nothing. -/
theorem unknown_system (sort : Samples → Samples) (simps : Samples → ℝ) (float : List Char → Option ℝ) (ab : BandInfo → ℝ → ℝ) (vega : BandInfo → Samples) (system : List Char)
    (h1 : system ≠ ['A', 'B']) (h2 : hasVega (system.map lowerC) = false) (which : List ℕ) (s : List BandInfo) :
    setSystem sort simps float ab vega system which s = (s, some .value) := by
  unfold setSystem
  rw [if_neg h1, if_neg (by simp [h2])]

theorem dropVega_none : ∀ (n : ℕ) (t : List Char), hasVega t = false → t.length ≤ n → dropVega n t = t
  | 0, _, _, _ => rfl
  | n + 1, [], _, _ => rfl
  | n + 1, c :: t, h, hl => by
    rw [hasVega, Bool.or_eq_false_iff] at h
    rw [dropVega, if_neg (by simp [h.1]), dropVega_none n t h.2 (by simpa using hl)]

/-- C186.  `vega` in any case and a text that a number can be read from is that number, with other text (or none) 0. -/
theorem offset_of_name (float : List Char → Option ℝ) (name text : List Char) (hn : name.map lowerC = ['v', 'e', 'g', 'a']) (ht : hasVega (text.map lowerC) = false) :
    hasVega ((name ++ text).map lowerC) = true ∧ offset float (name ++ text) = (float (text.map lowerC)).getD 0 := by
  have hl : name.length = 4 := by have := congrArg List.length hn; simpa using this
  constructor
  · rw [List.map_append, hn]
    simp [hasVega, List.isPrefixOf]
  · unfold offset
    have : (name ++ text).length = (text.length + 3) + 1 := by rw [List.length_append]; omega
    rw [List.map_append, hn, this]
    have e : dropVega (text.length + 3 + 1) (['v', 'e', 'g', 'a'] ++ text.map lowerC) = dropVega (text.length + 3) (text.map lowerC) := by
      rw [List.cons_append, dropVega, if_pos (by simp [List.isPrefixOf])]
      rfl
    rw [e, dropVega_none _ _ ht (by simp)]

/-- C186.  The four letters in any case. -/
theorem vega_any_case : ∀ a ∈ ['v', 'V'], ∀ b ∈ ['e', 'E'], ∀ c ∈ ['g', 'G'], ∀ d ∈ ['a', 'A'], [a, b, c, d].map lowerC = ['v', 'e', 'g', 'a'] := by decide

/-- C186.  If a band cannot be computed, the exception comes after the bands named before it have been changed; that band and the rest are as before. -/
theorem failed_midway (f : BandInfo → Except PhotBand.Err BandInfo) : ∀ (which : List ℕ) (s s' : List BandInfo) (e : PhotBand.Err), loop f which s = (s', some e) →
    ∃ pre i post b, which = pre ++ i :: post ∧ loop f pre s = (s', none) ∧ s'[i]? = some b ∧ f b = .error e
  | [], s, s', e, h => by simp [loop] at h
  | j :: l, s, s', e, h => by
    rw [loop] at h
    cases hj : s[j]? with
    | none =>
      rw [hj] at h
      obtain ⟨pre, i, post, b, h1, h2, h3, h4⟩ := failed_midway f l s s' e h
      exact ⟨j :: pre, i, post, b, by rw [h1]; rfl, by rw [loop, hj]; exact h2, h3, h4⟩
    | some c =>
      rw [hj] at h
      dsimp only at h
      cases hc : f c with
      | error e' =>
        rw [hc] at h
        simp only [Prod.mk.injEq, Option.some.injEq] at h
        obtain ⟨rfl, rfl⟩ := h
        exact ⟨[], j, l, c, rfl, rfl, hj, hc⟩
      | ok c' =>
        rw [hc] at h
        obtain ⟨pre, i, post, b, h1, h2, h3, h4⟩ := failed_midway f l _ s' e h
        exact ⟨j :: pre, i, post, b, by rw [h1]; rfl, by rw [loop, hj]; dsimp only; rw [hc]; exact h2, h3, h4⟩

/-- A band of three samples. -/
noncomputable def demoBand : BandInfo := ⟨[(1, 1), (2, 1), (3, 1)], 2, 1, 7, true⟩

theorem demo_flux (sp : Spec) (al : Option Bool) (h : sp = .array [1, 1, 1] ∨ (sp = .spectrum [(1, 1), (2, 1), (3, 1)] ∧ al = some true)) :
    computeFlux id (fun l => (l.map (·.2)).sum) demoBand sp al true = .ok 6 := by
  have hm : maxOf [1, 2, 3] = 3 := by norm_num [maxOf]
  have hn : minOf [1, 2, 3] = 1 := by norm_num [minOf]
  rcases h with rfl | ⟨rfl, rfl⟩
  · norm_num [computeFlux, demoBand, finish, Overlapped, hm, hn]
  · norm_num [computeFlux, demoBand, finish, Overlapped, interp, hm, hn]

/-- Cases that meet the hypotheses: zero points from an array, a failure at the second band, AB. -/
example : computeZpts id (fun l => (l.map (·.2)).sum) (.spec (.array [1, 1, 1])) [0] [demoBand] = ([{ demoBand with zpt := 6 }], none) := by
  simp [computeZpts, loop, computeZpt, demo_flux]

example : computeZpts id (fun l => (l.map (·.2)).sum) (.spec (.array [1, 1, 1])) [0, 1] [demoBand, { demoBand with pts := [] }] =
    ([{ demoBand with zpt := 6 }, { demoBand with pts := [] }], some .value) := by
  have : computeFlux id (fun l => (l.map (·.2)).sum) { demoBand with pts := [] } (.array [1, 1, 1]) none true = .error .value := by simp [computeFlux]
  simp [computeZpts, loop, computeZpt, demo_flux, this]

example : setSystem id (fun l => (l.map (·.2)).sum) (fun _ => none) (fun _ _ => 1) (fun _ => []) ['A', 'B'] [0] [demoBand] = ([{ demoBand with zpt := 6 }], none) := by
  have h := demo_flux (.spectrum [(1, 1), (2, 1), (3, 1)]) (some true) (Or.inr ⟨rfl, rfl⟩)
  have e : (demoBand.pts.map fun p => (p.1, (1 : ℝ))) = [(1, 1), (2, 1), (3, 1)] := by simp [demoBand]
  simp [setSystem, loop, computeZpt, e, h]

end Verif.PhotSystems

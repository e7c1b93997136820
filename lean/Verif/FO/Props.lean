/-
C53-C56: the factor oracle and the two searches that use it.

`build fuel text` is the constructor with at most `fuel` steps in each search for a base; `.stop` means that a search did not end within that
number of steps (or that the identifiers are used up), `.ub` an access out of range.
-/
import Verif.FO.Turbo
import Verif.FO.Total
import Verif.FO.Witness
import Verif.PM.Props

namespace Verif.FO

open PM (Byte Occ Exact kmpBuild_spec)

/-! ### C53 -/

/-- C53: the construction of the oracle of a non-empty NUL-free text has no access out of range, however long it runs. -/
theorem C53_no_ub (fuel : Nat) (text : List Byte) (hne : text ≠ []) (hnz : ∀ c ∈ text, c ≠ 0#8) : build fuel text ≠ .ub := by
  intro e
  rcases build_spec fuel text hne hnz with h | ⟨s, lrs, h, _⟩ <;> rw [h] at e <;> cases e

example := C53_no_ub 300 [97#8, 98#8, 97#8] (by decide) (by decide)

/-- C53, as far as it holds: the oracle, if finished, accepts every factor of the text, without any access out of range (whatever the byte
after the array). Missing: that the construction is finished, see `C53_refuted`. -/
theorem C53_factors_partial (fuel : Nat) (text : List Byte) (hne : text ≠ []) (hnz : ∀ c ∈ text, c ≠ 0#8) (o : Oracle)
    (ho : build fuel text = .ok o) (past : Option Byte) (u w v : List Byte) (hw : text = u ++ w ++ v) : o.accept past w = some true := by
  rcases build_spec fuel text hne hnz with h | ⟨s, lrs, h, hL⟩
  · rw [h] at ho; cases ho
  · rw [h] at ho
    cases ho
    obtain ⟨t, ht, _⟩ := hL.reads (u.length + w.length) (by rw [hw]; simp) u.length (by omega)
    have : (text.take (u.length + w.length)).drop u.length = w := by
      rw [hw, List.take_append_of_le_length (by simp), List.take_of_length_le (by simp)]
      simp
    rw [this] at ht
    exact acceptFrom_strict text s lrs hL past w 0 t (by omega) ht

theorem Reads_ge {s : Builder} (hI : Inv s No) : ∀ (w : List Byte) (st t : Nat), Reads s st w t → st + w.length ≤ t := by
  intro w
  induction w with
  | nil => rintro st t rfl; simp
  | cons c w ih =>
    rintro st t ⟨u, hd, _, hr⟩
    have := ih u t hr
    have := D_lt hI hd
    simp only [List.length_cons]
    omega

/-- C53 fails: for this text of 71 letters, `FactorOracle` never finishes, with any number of steps. -/
theorem C53_refuted : (∀ c ∈ witness, c ≠ 0#8) ∧ witness.length = 71 ∧ ∀ fuel o, build fuel witness ≠ .ok o := by
  exact ⟨by decide +kernel, by decide +kernel, build_stuck 300 witness witness_stuck⟩

/-- C53: for an empty text the constructor writes out of range. -/
theorem C53_empty_ub (fuel : Nat) : build fuel [] = .ub := rfl

/-- C53: the number of steps does not matter for a finished oracle. -/
theorem C53_fuel (fuel k : Nat) (text : List Byte) (o : Oracle) (h : build fuel text = .ok o) : build (fuel + k) text = .ok o := by
  unfold build at h ⊢
  rw [buildWith_agree (bd := true) (fb' := findBase fuel) (fun s ts i hs => findBase_mono fuel k s ts i hs) text]
  · exact h
  · rw [h]; simp [bad]

/-- C53 in full for texts with few letters for their size: if all characters are among `A` and `(m - 2) |A| / 2 + 2` elements fit into the
blocks made for `m` characters, the construction ends (no search takes `2 ^ 32 + 1` steps) and the oracle accepts every factor. -/
theorem C53_total (text A : List Byte) (hne : text ≠ []) (hnz : ∀ c ∈ text, c ≠ 0#8) (hA : ∀ c ∈ text, c ∈ A)
    (hroom : A.length * (text.length - 2) + 4 ≤ 2 * (256 * ((text.length + 255) / 256))) (hm : text.length ≤ 2 ^ 23) :
    ∃ o, (∀ fuel, 2 ^ 32 + 1 ≤ fuel → build fuel text = .ok o) ∧
      ∀ (past : Option Byte) (u w v : List Byte), text = u ++ w ++ v → o.accept past w = some true := by
  obtain ⟨o, ho⟩ := build_total (2 ^ 32 + 1) text A hne hnz hA hroom hm (Nat.le_refl _)
  refine ⟨o, fun fuel hf => ?_, fun past u w v hw => C53_factors_partial _ text hne hnz o ho past u w v hw⟩
  obtain ⟨k, rfl⟩ := Nat.exists_eq_add_of_le hf
  exact C53_fuel _ k text o ho

example := C53_total [97#8, 98#8, 99#8, 97#8] [97#8, 98#8, 99#8] (by decide) (by decide) (by decide) (by decide) (by decide)

/-- C53 in full for texts over two letters. -/
theorem C53_two_letters (text : List Byte) (a b : Byte) (hne : text ≠ []) (hnz : ∀ c ∈ text, c ≠ 0#8) (hA : ∀ c ∈ text, c = a ∨ c = b)
    (hm : text.length ≤ 2 ^ 23) : ∃ o, (∀ fuel, 2 ^ 32 + 1 ≤ fuel → build fuel text = .ok o) ∧
      ∀ (past : Option Byte) (u w v : List Byte), text = u ++ w ++ v → o.accept past w = some true := by
  refine C53_total text [a, b] hne hnz (fun c hc => by simpa using hA c hc) ?_ hm
  have := List.length_pos_iff.2 hne
  show 2 * _ + 4 ≤ _
  omega

example := C53_two_letters [97#8, 98#8, 98#8, 97#8] 97#8 98#8 (by decide) (by decide) (by decide) (by decide)

/-- C53 in full for texts of at most 23 characters. -/
theorem C53_short (text : List Byte) (hne : text ≠ []) (hnz : ∀ c ∈ text, c ≠ 0#8) (hm : text.length ≤ 23) :
    ∃ o, (∀ fuel, 2 ^ 32 + 1 ≤ fuel → build fuel text = .ok o) ∧
      ∀ (past : Option Byte) (u w v : List Byte), text = u ++ w ++ v → o.accept past w = some true := by
  have hp := List.length_pos_iff.2 hne
  refine C53_total text text hne hnz (fun c hc => hc) ?_ (by omega)
  have h1 : text.length * (text.length - 2) ≤ 23 * 21 := Nat.mul_le_mul (by omega) (by omega)
  omega

example := C53_short [97#8, 98#8, 99#8, 100#8, 97#8] (by decide) (by decide) (by decide)

example : ∃ text : List Byte, 23 < text.length ∧ (∀ c ∈ text, c = 97#8 ∨ c = 98#8) ∧ 97#8 ∈ text ∧ 98#8 ∈ text :=
  ⟨List.replicate 13 97#8 ++ List.replicate 13 98#8, by decide, by decide, by decide, by decide⟩

example : (match build 300 [97#8, 98#8, 98#8, 97#8, 99#8] with | .ok o => o.accept none [98#8, 97#8, 99#8] | _ => none) = some true := by
  decide +kernel
example : ∃ u v, [97#8, 98#8, 98#8, 97#8, 99#8] = u ++ [98#8, 97#8] ++ v := ⟨[97#8, 98#8], [99#8], rfl⟩

/-! ### C54 -/

/-- C54, as far as it holds: if no byte is read past the end of the array, an accepted word is not longer than the text, and is the text if it
is as long. Missing: words for which `image` reads the byte after the array, see `C54_refuted`. -/
theorem C54_full_length_partial (fuel : Nat) (text : List Byte) (hne : text ≠ []) (hnz : ∀ c ∈ text, c ≠ 0#8) (o : Oracle)
    (ho : build fuel text = .ok o) (w : List Byte) (hw : o.accept none w = some true) :
    w.length ≤ text.length ∧ (w.length = text.length → w = text) := by
  rcases build_spec fuel text hne hnz with h | ⟨s, lrs, h, hL⟩
  · rw [h] at ho; cases ho
  · rw [h] at ho
    cases ho
    obtain ⟨t, ht⟩ := acceptFrom_none text s lrs hL w 0 (by omega) hw
    have := Reads_len hL.inv hL.check w 0 t (by omega) ht
    simpa using this

/-- C54, the same when the byte `g` after the array does not occur in the word. Then `accept` has no access out of range but the one of that
byte. -/
theorem C54_full_length_past_partial (fuel : Nat) (text : List Byte) (hne : text ≠ []) (hnz : ∀ c ∈ text, c ≠ 0#8) (o : Oracle)
    (ho : build fuel text = .ok o) (g : Byte) (w : List Byte) (hg : g ∉ w) :
    ∃ r, o.accept (some g) w = some r ∧ (r = true → w.length ≤ text.length ∧ (w.length = text.length → w = text)) := by
  rcases build_spec fuel text hne hnz with h | ⟨s, lrs, h, hL⟩
  · rw [h] at ho; cases ho
  · rw [h] at ho
    cases ho
    obtain ⟨r, er, hr⟩ := acceptFrom_spec text s lrs hL g w 0 (by omega) hg
    refine ⟨r, er, fun e => ?_⟩
    obtain ⟨t, ht⟩ := hr.1 e
    have := Reads_len hL.inv hL.check w 0 t (by omega) ht
    simpa using this

example : ∃ fuel o, build fuel [97#8, 98#8, 98#8, 97#8] = .ok o ∧ o.accept none [98#8, 98#8] = some true ∧ build (fuel + 7) [97#8, 98#8, 98#8, 97#8] = .ok o ∧
    (∀ w, o.accept none w = some true → w.length ≤ 4 ∧ (w.length = 4 → w = [97#8, 98#8, 98#8, 97#8])) ∧
    ∃ r, o.accept (some 0#8) [98#8, 98#8, 97#8, 98#8] = some r ∧ (r = true → 4 ≤ 4 ∧ (4 = 4 → [98#8, 98#8, 97#8, 98#8] = [97#8, 98#8, 98#8, 97#8])) := by
  obtain ⟨o, h, _⟩ := C53_two_letters [97#8, 98#8, 98#8, 97#8] 97#8 98#8 (by decide) (by decide) (by decide) (by decide)
  have e := h _ (Nat.le_refl _)
  exact ⟨_, o, e, C53_factors_partial _ _ (by decide) (by decide) o e none [97#8] [98#8, 98#8] [97#8] rfl, C53_fuel _ 7 _ o e,
    fun w hw => C54_full_length_partial _ _ (by decide) (by decide) o e w hw,
    C54_full_length_past_partial _ _ (by decide) (by decide) o e 0#8 [98#8, 98#8, 97#8, 98#8] (by decide)⟩

theorem acceptFrom_append (text : List Byte) (s : Builder) (lrs : List Nat) (h : LI text text.length lrs s) (past : Option Byte) (v : List Byte) :
    ∀ (w : List Byte) (st t : Nat), st ≤ text.length → Reads s st w t →
    (fin s).acceptFrom past st (w ++ v) = (fin s).acceptFrom past t v := by
  intro w
  induction w with
  | nil => rintro st t _ rfl; rfl
  | cons c w ih =>
    rintro st t hst ⟨u, hd, hu, hr⟩
    have hu' := hu
    rw [h.check] at hu
    have hlt := D_lt h.inv hd
    rw [List.cons_append, Oracle.acceptFrom]
    rcases image_spec text s lrs h past st hst c (fun e => absurd e (by omega)) with ⟨u', e, hd', _⟩ | ⟨_, hno⟩
    · rw [e]
      have := D_fun hd hd'
      subst this
      simp only [Option.bind_eq_bind, Option.bind_some]
      exact ih u t hu hr
    · exact absurd hd (hno u hu)

/-- C54 fails for every finished oracle: if the byte after the array is `g`, the text followed by `g` is accepted. -/
theorem C54_refuted (fuel : Nat) (text : List Byte) (hne : text ≠ []) (hnz : ∀ c ∈ text, c ≠ 0#8) (o : Oracle)
    (ho : build fuel text = .ok o) (g : Byte) : o.accept (some g) (text ++ [g]) = some true := by
  rcases build_spec fuel text hne hnz with h | ⟨s, lrs, h, hL⟩
  · rw [h] at ho; cases ho
  · rw [h] at ho
    cases ho
    obtain ⟨t, ht, htl, _⟩ := hL.reads text.length (Nat.le_refl _) 0 (by omega)
    rw [List.take_length, List.drop_zero] at ht
    have hge := Reads_ge hL.inv text 0 t ht
    unfold Oracle.accept
    rw [acceptFrom_append text s lrs hL (some g) [g] text 0 t (by omega) ht]
    rw [show t = text.length by omega]
    have hc : (fin s).check.length = text.length := by
      show s.check.length = _
      rw [hL.check]
    simp [Oracle.acceptFrom, Oracle.image, hc]

example : (match build 300 [97#8, 98#8, 98#8, 97#8, 99#8] with
    | .ok o => (o.accept none [97#8, 98#8, 98#8, 97#8, 99#8], o.accept none [97#8, 98#8, 98#8, 97#8, 97#8], o.accept none [97#8, 99#8])
    | _ => (none, none, none)) = (some true, some false, some true) := by
  decide +kernel

/-! ### C55 -/

/-- C55, as far as it holds: when the byte after the array of the oracle does not occur in the text, the search has no other access out of range
and lists the occurrences, if the construction ends. Missing: that it ends, see `C55_refuted`. -/
theorem C55_bom_partial (fuel : Nat) (text key : List Byte) (hne : key ≠ []) (hnz : ∀ c ∈ key, c ≠ 0#8) (g : Byte) (hg : g ∉ text) :
    bom fuel text key (some g) = .stop ∨ ∃ r, bom fuel text key (some g) = .ok r ∧ Exact key text r := by
  unfold bom
  rcases build_spec fuel key.reverse (by simpa using hne) (fun c hc => hnz c (by simpa using hc)) with h | ⟨s, lrs, h, hL⟩
  · left; rw [h]; rfl
  · right
    rw [h, ok_bind]
    obtain ⟨r, er, hr⟩ := bomLoop_spec key text hne s lrs hL g hg text.length 0 [] (by omega) (PM.Found_zero key text)
    rw [Nat.zero_add] at er
    rw [er]
    exact ⟨r, rfl, hr⟩

example := C55_bom_partial 300 [98#8, 97#8, 98#8, 99#8] [97#8, 98#8, 99#8] (by decide) (by decide) 0#8 (by decide)

/-- C55 in full for keys with few letters for their size (see `C53_total`): the search ends and lists exactly the occurrences. -/
theorem C55_total (text key A : List Byte) (hne : key ≠ []) (hnz : ∀ c ∈ key, c ≠ 0#8) (hA : ∀ c ∈ key, c ∈ A)
    (hroom : A.length * (key.length - 2) + 4 ≤ 2 * (256 * ((key.length + 255) / 256))) (hm : key.length ≤ 2 ^ 23) (g : Byte) (hg : g ∉ text)
    (fuel : Nat) (hf : 2 ^ 32 + 1 ≤ fuel) : ∃ r, bom fuel text key (some g) = .ok r ∧ Exact key text r := by
  rcases C55_bom_partial fuel text key hne hnz g hg with h | h
  · obtain ⟨o, ho⟩ := build_total fuel key.reverse A (by simpa using hne) (fun c hc => hnz c (by simpa using hc)) (fun c hc => hA c (by simpa using hc))
      (by simpa using hroom) (by simpa using hm) hf
    unfold bom at h
    rw [ho, ok_bind] at h
    revert h
    cases bomLoop o (some g) text key.length (key.length - 1) [] <;> intro h <;> cases h
  · exact h

example := C55_total [98#8, 97#8, 98#8, 99#8] [97#8, 98#8, 99#8] [97#8, 98#8, 99#8] (by decide) (by decide) (by decide) (by decide) (by decide) 0#8 (by decide) _ (Nat.le_refl _)

/-- C55 in full for keys over two letters. -/
theorem C55_two_letters (text key : List Byte) (a b : Byte) (hne : key ≠ []) (hnz : ∀ c ∈ key, c ≠ 0#8) (hA : ∀ c ∈ key, c = a ∨ c = b)
    (hm : key.length ≤ 2 ^ 23) (g : Byte) (hg : g ∉ text) (fuel : Nat) (hf : 2 ^ 32 + 1 ≤ fuel) :
    ∃ r, bom fuel text key (some g) = .ok r ∧ Exact key text r := by
  refine C55_total text key [a, b] hne hnz (fun c hc => by simpa using hA c hc) ?_ hm g hg fuel hf
  have := List.length_pos_iff.2 hne
  show 2 * _ + 4 ≤ _
  omega

example := C55_two_letters [98#8, 97#8, 98#8, 99#8] [97#8, 98#8, 98#8] 97#8 98#8 (by decide) (by decide) (by decide) (by decide) 0#8 (by decide) _ (Nat.le_refl _)

/-- C55 in full for keys of at most 23 characters. -/
theorem C55_short (text key : List Byte) (hne : key ≠ []) (hnz : ∀ c ∈ key, c ≠ 0#8) (hm : key.length ≤ 23) (g : Byte) (hg : g ∉ text)
    (fuel : Nat) (hf : 2 ^ 32 + 1 ≤ fuel) : ∃ r, bom fuel text key (some g) = .ok r ∧ Exact key text r := by
  have hp := List.length_pos_iff.2 hne
  refine C55_total text key key hne hnz (fun c hc => hc) ?_ (by omega) g hg fuel hf
  have h1 : key.length * (key.length - 2) ≤ 23 * 21 := Nat.mul_le_mul (by omega) (by omega)
  omega

example := C55_short [98#8, 97#8, 98#8, 99#8] [97#8, 98#8, 99#8] (by decide) (by decide) (by decide) 0#8 (by decide) _ (Nat.le_refl _)

/-- C55 fails: the search for the reversed witness never ends, in any text. -/
theorem C55_refuted (text : List Byte) (past : Option Byte) (fuel : Nat) (r : List Nat) : bom fuel text witness.reverse past ≠ .ok r := by
  unfold bom
  rw [List.reverse_reverse]
  intro h
  rcases build_spec fuel witness (by decide) C53_refuted.1 with e | ⟨s, lrs, e, _⟩
  · rw [e] at h; cases h
  · exact C53_refuted.2.2 fuel _ e

/-- C55: strictly, the byte after the array must not be read; searching "ab" in "xa" reads it. If it is "x", a match is reported where there is
none. -/
theorem C55_strict_oob : bom 300 [120#8, 97#8] [97#8, 98#8] none = .ub ∧ bom 300 [120#8, 97#8] [97#8, 98#8] (some 120#8) = .ok [0] ∧
    ¬ Occ [97#8, 98#8] [120#8, 97#8] 0 := by
  refine ⟨by decide +kernel, by decide +kernel, ?_⟩
  unfold Occ; decide

example : bom 300 [97#8, 97#8, 98#8, 97#8, 97#8, 98#8] [97#8, 97#8] (some 0#8) = .ok [0, 3] := by decide +kernel
example : Occ [97#8, 97#8] [97#8, 97#8, 98#8, 97#8, 97#8, 98#8] 3 := by unfold Occ; decide

/-! ### C56 -/

/-- C56, as far as it holds: when the bytes after the array of the oracle and after the key do not occur in the text, the search has no other
access out of range, ends if the construction ends, and what it reports are occurrences, each once and in increasing order. Missing: that all
occurrences are reported, see `C56_refuted`. -/
theorem C56_turbo_partial (fuel : Nat) (text key : List Byte) (hne : key ≠ []) (hnz : ∀ c ∈ key, c ≠ 0#8) (g1 g2 : Byte) (hg1 : g1 ∉ text)
    (hg2 : g2 ∉ text) : turboBom fuel text key (some g1) (some g2) = .stop ∨
    ∃ r, turboBom fuel text key (some g1) (some g2) = .ok r ∧ r.Pairwise (· < ·) ∧ ∀ p ∈ r, Occ key text p := by
  have hkp := List.length_pos_iff.2 hne
  unfold turboBom
  rcases build_spec fuel key.reverse (by simpa using hne) (fun c hc => hnz c (by simpa using hc)) with h | ⟨s, lrs, h, hL⟩
  · left; rw [h]; rfl
  · right
    obtain ⟨next, en, _, hn⟩ := kmpBuild_spec key
    rw [h, ok_bind, en, lift_some, ok_bind]
    obtain ⟨r, er, hr⟩ := turboLoop_spec key text hne s lrs hL g1 g2 hg1 hg2 next hn _ (key.length - 1) 0 [] (Nat.le_refl _) (by omega) (by omega)
      (fun _ hlt => by omega) .nil (by simp)
    rw [er]
    exact ⟨r, rfl, hr⟩

example := C56_turbo_partial 300 [98#8, 97#8, 98#8, 99#8] [97#8, 98#8, 99#8] (by decide) (by decide) 0#8 1#8 (by decide) (by decide)

/-- C56: for keys with few letters for their size (see `C53_total`) the search ends. -/
theorem C56_ends (text key A : List Byte) (hne : key ≠ []) (hnz : ∀ c ∈ key, c ≠ 0#8) (hA : ∀ c ∈ key, c ∈ A)
    (hroom : A.length * (key.length - 2) + 4 ≤ 2 * (256 * ((key.length + 255) / 256))) (hm : key.length ≤ 2 ^ 23) (g1 g2 : Byte) (hg1 : g1 ∉ text)
    (hg2 : g2 ∉ text) (fuel : Nat) (hf : 2 ^ 32 + 1 ≤ fuel) :
    ∃ r, turboBom fuel text key (some g1) (some g2) = .ok r ∧ r.Pairwise (· < ·) ∧ ∀ p ∈ r, Occ key text p := by
  rcases C56_turbo_partial fuel text key hne hnz g1 g2 hg1 hg2 with h | h
  · obtain ⟨o, ho⟩ := build_total fuel key.reverse A (by simpa using hne) (fun c hc => hnz c (by simpa using hc)) (fun c hc => hA c (by simpa using hc))
      (by simpa using hroom) (by simpa using hm) hf
    unfold turboBom at h
    rw [ho, ok_bind] at h
    revert h
    cases PM.kmpBuild key with
    | none => intro h; cases h
    | some next =>
      rw [lift_some, ok_bind]
      cases turboLoop o (some g1) (some g2) next key text (key.length / 2) (key.length - 1) 0 [] <;> intro h <;> cases h
  · exact h

example := C56_ends [98#8, 97#8, 98#8, 99#8] [97#8, 98#8, 99#8] [97#8, 98#8, 99#8] (by decide) (by decide) (by decide) (by decide) (by decide) 0#8 1#8 (by decide) (by decide) _ (Nat.le_refl _)

/-- C56 fails: "aaaaab" occurs in "aaaaaaaab" at 3, but the search does not report it. -/
theorem C56_refuted : turboBom 300 [97#8, 97#8, 97#8, 97#8, 97#8, 97#8, 97#8, 97#8, 98#8] [97#8, 97#8, 97#8, 97#8, 97#8, 98#8] (some 0#8) (some 0#8)
      = .ok [] ∧
    Occ [97#8, 97#8, 97#8, 97#8, 97#8, 98#8] [97#8, 97#8, 97#8, 97#8, 97#8, 97#8, 97#8, 97#8, 98#8] 3 := by
  refine ⟨by decide +kernel, ?_⟩
  unfold Occ; decide

example : turboBom 300 [97#8, 97#8, 98#8, 97#8, 97#8, 98#8] [97#8, 98#8] (some 0#8) (some 0#8) = .ok [1, 4] := by decide +kernel

end Verif.FO

/-
Property theorems C97, second part: no proper prefix of a written object is read.
-/
import Verif.Serial.PropsCanon
import Verif.BV.Props
import Verif.Succ.Props
import Verif.Fit.Props
import Verif.Wave.Props
import Verif.Mult.Props
import Verif.MBit.Props
import Verif.Dac.Props
import Verif.Samc.Props
import Verif.Samc.PropsFits
import Verif.SA.Props
import Verif.SA.PropsAny

namespace Verif.Serial

/-- C97 (cut off `BitVector`). -/
theorem C97_cut_bit_vector (v : BV.BVec) (l : List Bool) (h : BV.Built v l) (hsz : l.length < 2 ^ 64) (p : Stream) (hp : p <+: v.write)
    (hne : p ≠ v.write) : BV.read p = none :=
  C97_bit_vector.cut (by simpa using (BV.C19_roundtrip v l h hsz []).1) hp hne

example : ∃ v, BV.Built v [true, false, true] ∧ BV.read (v.write.take 9) = none := by
  obtain ⟨v, hv⟩ := BV.Built.exists [true, false, true]
  have hl : 16 ≤ v.write.length := by simp [BV.BVec.write, writeVal, writeVec]; omega
  exact ⟨v, hv, C97_cut_bit_vector v _ hv (by decide) _ (List.take_prefix _ _) (fun h => by
    have := congrArg List.length h
    rw [List.length_take] at this
    omega)⟩

/-- C97 (cut off `SuccinctBitVector`). -/
theorem C97_cut_succinct (us : Bool) (v : BV.BVec) (l : List Bool) (h : BV.Built v l) (hsz : l.length < 2 ^ 41) :
    ∃ s, Succ.build us v = some s ∧ ∀ p, p <+: s.write us → p ≠ s.write us → Succ.read us p = none := by
  obtain ⟨s, e, h1, _⟩ := Succ.C23_roundtrip us v l h hsz []
  exact ⟨s, e, fun p hp hne => (C97_succinct us).cut (by simpa using h1) hp hne⟩

example : ∃ v s, BV.Built v (List.replicate 700 true) ∧ Succ.build true v = some s ∧ ∀ p, p <+: s.write true → p ≠ s.write true → Succ.read true p = none := by
  obtain ⟨v, hv⟩ := BV.Built.exists (List.replicate 700 true)
  obtain ⟨s, e, h⟩ := C97_cut_succinct true v _ hv (by rw [List.length_replicate]; decide)
  exact ⟨v, s, hv, e, h⟩

/-- C97 (cut off `FitVector`). -/
theorem C97_cut_fit_vector (w : Nat) (h1 : 1 ≤ w) (h63 : w ≤ 63) (i : Fit.Init) (hi : Fit.initOk w i) (os : List Fit.Op)
    (ho : Fit.opsOk w (Fit.specInit i).length os) (v0 v : Fit.FVec) (e0 : Fit.runInit w i = some v0) (e : Fit.runOps v0 os = some v)
    (hsz : v.size * w < 2 ^ 64) (p : Stream) (hp : p <+: v.write) (hne : p ≠ v.write) : Fit.read p = none :=
  C97_fit_vector.cut (by simpa using (Fit.C27_roundtrip w h1 h63 i hi os ho v0 v e0 e hsz []).1) hp hne

example : ∃ v, Fit.runInit 13 (.sizeVal 30 5000) = some v ∧ ∀ p, p <+: v.write → p ≠ v.write → Fit.read p = none :=
  ⟨_, rfl, fun p => C97_cut_fit_vector 13 (by decide) (by decide) (.sizeVal 30 5000) (by simp [Fit.initOk]) [] trivial _ _ rfl rfl (by decide) p⟩

/-- C97 (cut off `WaveletTree`). -/
theorem C97_cut_wavelet_tree (vec : List Nat) (hne : vec ≠ []) (hv : ∀ v ∈ vec, v < 2 ^ 30) (hl : vec.length < 2 ^ 41) :
    ∃ t, Wave.make vec = some t ∧ ∀ (old : Wave.WT) p, old.nodes.length = t.nodes.length → p <+: t.write → p ≠ t.write → old.read p = none := by
  obtain ⟨t, e, _, h⟩ := Wave.C37_roundtrip vec hne hv hl
  exact ⟨t, e, fun old p ho hp hpne => (C97_wavelet_tree old).cut (by simpa using h old [] ho) hp hpne⟩

example := C97_cut_wavelet_tree [3, 1, 200, 3] (by decide) (by decide) (by decide)

/-- C97 (cut off `MultipleVector`). -/
theorem C97_cut_multiple_vector (sizes : List Nat) (hne : sizes ≠ []) (hs : ∀ s ∈ sizes, 1 ≤ s ∧ s ≤ 8) (os : List Mult.Op)
    (ho : Mult.opsOk sizes [] os) (v : Mult.MVec) (e : Mult.runOps (Mult.new sizes) os = some v) (hb : v.bytes.length < 2 ^ 64)
    (hk : sizes.length < 2 ^ 64) (p : Stream) (hp : p <+: v.store) (hpne : p ≠ v.store) : (Mult.new []).load p = none :=
  C97_multiple_vector.cut (by simpa using (Mult.C29_roundtrip sizes hne hs os ho v e hb hk []).1) hp hpne

example := C97_cut_multiple_vector [1, 2] (by decide) (by decide) [.pushBack [300, 7]] (by simp [Mult.opsOk, Mult.opOk]) _ rfl (by decide) (by decide)

/-- C97 (cut off `DacVector`). -/
theorem C97_cut_dac_vector (split : List Nat → Option (List Nat)) (list units : List Nat) (hne : list ≠ []) (hl : ∀ v ∈ list, v < 2 ^ 63)
    (hn : list.length < 2 ^ 31) (hu : Dac.UnitsOk list units) (hun : units.length < 2 ^ 64) :
    ∃ d b, Dac.make split list units = some d ∧ d.write = some b ∧ ∀ p, p <+: b → p ≠ b → Dac.read p = none := by
  obtain ⟨d, b, e1, e2, e3, _⟩ := Dac.C33_roundtrip split list units hne hl hn hu hun []
  refine ⟨d, b, e1, e2, fun p hp hpne => ?_⟩
  rw [List.append_nil] at e3
  cases e : Dac.read p with
  | none => rfl
  | some x =>
    exfalso
    obtain ⟨d', r⟩ := x
    obtain ⟨w, _, h1, h2⟩ := C97_dac_vector p d' r e
    obtain ⟨q, hq⟩ := hp
    have := h2 (r ++ q)
    rw [← List.append_assoc, ← h1, hq, e3] at this
    simp only [Option.some.injEq, Prod.mk.injEq] at this
    have hq0 : q = [] := (List.append_eq_nil_iff.1 this.2.symm).2
    subst hq0
    simp at hq
    exact hpne hq

example := C97_cut_dac_vector (fun _ => none) [3, 700, 0, 66000, 5] [4, 5, 8] (by decide) (by decide) (by decide)
  ⟨by decide, by decide, by decide, 66000, by decide, by decide +kernel⟩ (by decide)

/-- C97 (cut off `Samc`). -/
theorem C97_cut_samc (W : Nat) (legacy : Bool) (hW : W ≤ 64) (h8 : W % 8 = 0) (keys : List Samc.Key) (hne : keys ≠ [])
    (hnul : ∀ k ∈ keys, (0 : Byte) ∉ k) (L : Nat) (hL : ∀ k ∈ keys, k.length ≤ L)
    (hbig : (L + 2) * (1 + (L + 1) * (keys.length * keys.length)) < 2 ^ W) :
    ∃ s, Samc.build W legacy keys = some s ∧ ∀ p, p <+: s.write W → p ≠ s.write W → Samc.read W p = none := by
  obtain ⟨s, e, h, _⟩ := Samc.C67_samc_roundtrip W legacy hW h8 keys hne hnul L hL hbig []
  exact ⟨s, e, fun p hp hpne => (C97_samc W).cut (by simpa using h) hp hpne⟩

example := C97_cut_samc 32 true (by decide) (by decide) Samc.sample (by decide) (by decide) 3 (by decide) (by decide)

/-- C97 (cut off `Samc`), for every code type for which the constructor is defined. -/
theorem C97_cut_samc_fits (W : Nat) (legacy : Bool) (hW1 : 1 ≤ W) (hW : W ≤ 64) (h8 : W % 8 = 0) (keys : List Samc.Key)
    (hnul : ∀ k ∈ keys, (0 : Byte) ∉ k) (L : Nat) (hL : ∀ k ∈ keys, k.length ≤ L)
    (hbig : (L + 2) * (1 + (L + 1) * (keys.length * keys.length)) < 2 ^ 64) (s : Samc.Samc) (hs : Samc.build W legacy keys = some s) :
    ∀ p, p <+: s.write W → p ≠ s.write W → Samc.read W p = none := fun _ hp hpne =>
  (C97_samc W).cut (by simpa using (Samc.C67_samc_fits W legacy hW1 hW h8 keys hnul L hL hbig s hs []).1) hp hpne

example : ∃ s, Samc.build 8 false Samc.twelve = some s ∧ ∀ p, p <+: s.write 8 → p ≠ s.write 8 → Samc.read 8 p = none := by
  obtain ⟨s, e⟩ := Option.isSome_iff_exists.1 (show (Samc.build 8 false Samc.twelve).isSome by decide +kernel)
  exact ⟨s, e, C97_cut_samc_fits 8 false (by decide) (by decide) (by decide) Samc.twelve (by decide) 1 (by decide) (by decide) s e⟩

/-- C97 (cut off `SamcDict`). -/
theorem C97_cut_samc_dict (W : Nat) (hW : W ≤ 64) (h8 : W % 8 = 0) (keys : List Samc.Key) (hne : keys ≠ []) (hnul : ∀ k ∈ keys, (0 : Byte) ∉ k)
    (L : Nat) (hL : ∀ k ∈ keys, k.length ≤ L) (hbig : (L + 2) * (1 + (L + 1) * (keys.length * keys.length)) < 2 ^ W)
    (hsz : (L + 2) * (1 + (L + 1) * (keys.length * keys.length)) < 2 ^ 41) :
    ∃ t, Samc.buildDict W keys = some t ∧ ∀ p, p <+: t.write W → p ≠ t.write W → Samc.readDict W p = none := by
  obtain ⟨t, e, h, _⟩ := Samc.C67_dict_roundtrip W hW h8 keys hne hnul L hL hbig hsz []
  exact ⟨t, e, fun p hp hpne => (C97_samc_dict W).cut (by simpa using h) hp hpne⟩

example := C97_cut_samc_dict 32 (by decide) (by decide) Samc.sample (by decide) (by decide) 3 (by decide) (by decide) (by decide)

/-- C97 (cut off `SamcDict`), for every code type for which the constructor is defined. -/
theorem C97_cut_samc_dict_fits (W : Nat) (hW1 : 1 ≤ W) (hW : W ≤ 64) (h8 : W % 8 = 0) (keys : List Samc.Key) (hne : keys ≠ [])
    (hnul : ∀ k ∈ keys, (0 : Byte) ∉ k) (L : Nat) (hL : ∀ k ∈ keys, k.length ≤ L)
    (hbig : (L + 2) * (1 + (L + 1) * (keys.length * keys.length)) < 2 ^ 64) (t : Samc.Dict) (ht : Samc.buildDict W keys = some t)
    (hsz : t.samc.storage.length < 2 ^ 41) : ∀ p, p <+: t.write W → p ≠ t.write W → Samc.readDict W p = none := fun _ hp hpne =>
  (C97_samc_dict W).cut (by simpa using (Samc.C67_dict_fits W hW1 hW h8 keys hne hnul L hL hbig t ht hsz []).1) hp hpne

/-- C97 (cut off `SuffixArray`). -/
theorem C97_cut_suffix_array (str : List Byte) (h : SA.Plain str) (h0 : str ≠ []) (hmax : str.length + 1 < 2 ^ 31) :
    ∃ o, SA.build str = some o ∧ ∀ p, p <+: o.write → p ≠ o.write → SA.read p = none := by
  obtain ⟨o, e, h⟩ := SA.C64_roundtrip str h h0 hmax []
  exact ⟨o, e, fun p hp hpne => C97_suffix_array.cut (by simpa using h) hp hpne⟩

example := C97_cut_suffix_array [98, 97, 110, 97, 110, 97] (by decide) (by decide) (by decide)

/-- C97 (cut off `SuffixArray`), for texts of any bytes. -/
theorem C97_cut_suffix_array_any (str : List Byte) (hmax : str.length + 1 < 2 ^ 31) (o : SA.SufArr) (hb : SA.build str = some o) :
    ∀ p, p <+: o.write → p ≠ o.write → SA.read p = none := fun _ hp hpne =>
  C97_suffix_array.cut (by simpa using (SA.C64_any str hmax o hb []).1) hp hpne

example := C97_cut_suffix_array_any [98, 97] (by decide) _ (Option.some_get (x := SA.build [98, 97]) (by decide +kernel)).symm

/-! ### `MultiBitVector`: padding is read and forgotten -/

theorem readVal_more (k : Nat) (b : Stream) (v : Nat) (r : Stream) (e : readVal k b = some (v, r)) (q : Stream) :
    readVal k (b ++ q) = some (v, r ++ q) := by
  obtain ⟨h1, h2⟩ := canon_val k b v r e
  rw [h1, List.append_assoc, h2]

theorem readMany_more {α : Type} (rd : Stream → Option (α × Stream))
    (h : ∀ b v r, rd b = some (v, r) → ∀ q, rd (b ++ q) = some (v, r ++ q)) : ∀ n b v r, MBit.readMany rd n b = some (v, r) →
    ∀ q, MBit.readMany rd n (b ++ q) = some (v, r ++ q) := by
  intro n
  induction n with
  | zero => intro b v r e q; cases e; rfl
  | succ n ih =>
    intro b v r e q
    unfold MBit.readMany at e ⊢
    cases e1 : rd b with
    | none => simp [e1] at e
    | some x =>
      obtain ⟨a, s⟩ := x
      cases e2 : MBit.readMany rd n s with
      | none => simp [e1, e2] at e
      | some y =>
        obtain ⟨l, t⟩ := y
        simp only [e1, e2, Option.bind_eq_bind, Option.bind_some, Option.pure_def, Option.some.injEq, Prod.mk.injEq] at e
        obtain ⟨rfl, rfl⟩ := e
        simp only [h b a s e1 q, ih s l t e2 q, Option.bind_eq_bind, Option.bind_some, Option.pure_def]

theorem readTip_more (S : Nat) (b : Stream) (v : MBit.Tip) (r : Stream) (e : MBit.readTip S b = some (v, r)) (q : Stream) :
    MBit.readTip S (b ++ q) = some (v, r ++ q) := by
  unfold MBit.readTip at e ⊢
  cases e1 : readVal 8 b with
  | none => simp [e1] at e
  | some x =>
    obtain ⟨l1, s⟩ := x
    simp only [e1, Option.bind_eq_bind, Option.bind_some, Option.pure_def] at e
    simp only [readVal_more 8 b l1 s e1 q, Option.bind_eq_bind, Option.bind_some, Option.pure_def]
    split at e
    case isFalse => cases e
    case isTrue h =>
      simp only [Option.some.injEq, Prod.mk.injEq] at e
      obtain ⟨rfl, rfl⟩ := e
      rw [if_pos (by simp; omega), List.take_append_of_le_length (by omega), List.drop_append_of_le_length (by omega)]

theorem readTips_more (S : Nat) (b : Stream) (v : List MBit.Tip) (r : Stream) (e : MBit.readTips S b = some (v, r)) (q : Stream) :
    MBit.readTips S (b ++ q) = some (v, r ++ q) := by
  unfold MBit.readTips at e ⊢
  cases e1 : readVal 8 b with
  | none => simp [e1] at e
  | some x =>
    obtain ⟨n, s⟩ := x
    simp only [e1, Option.bind_eq_bind, Option.bind_some] at e
    simp only [readVal_more 8 b n s e1 q, Option.bind_eq_bind, Option.bind_some]
    exact readMany_more _ (readTip_more S) n s v r e q

theorem mbit_more (S : Nat) (b : Stream) (v : MBit.MBV) (r : Stream) (e : MBit.read S b = some (v, r)) (q : Stream) :
    MBit.read S (b ++ q) = some (v, r ++ q) := by
  unfold MBit.read at e ⊢
  cases e1 : readVec 8 b with
  | none => simp [e1] at e
  | some x =>
    obtain ⟨ws, s⟩ := x
    cases e2 : MBit.readMany (MBit.readTips S) (2 ^ S) s with
    | none => simp [e1, e2] at e
    | some y =>
      obtain ⟨ts, t⟩ := y
      simp only [e1, e2, Option.bind_eq_bind, Option.bind_some, Option.pure_def, Option.some.injEq, Prod.mk.injEq] at e
      obtain ⟨rfl, rfl⟩ := e
      have h1 : readVec 8 (b ++ q) = some (ws, s ++ q) := by
        obtain ⟨k1, k2⟩ := canon_vec 8 _ _ _ e1
        rw [k1, List.append_assoc, k2]
      simp only [h1, readMany_more _ (readTips_more S) _ _ _ _ e2 q, Option.bind_eq_bind, Option.bind_some, Option.pure_def]

/-- C97 (cut off `MultiBitVector`), whatever the padding. -/
theorem C97_cut_multi_bit_vector (S : Nat) (hS : S = 1 ∨ S = 2 ∨ S = 3) (os : List MBit.Op) (ho : ∀ o ∈ os, o.Ok S)
    (hb : ∀ o ∈ os, match o with | .set i _ => i < 2 ^ 57 | .resize i => i < 2 ^ 57 | .build => True)
    (v : MBit.MBV) (e : MBit.runM S (MBit.empty S) os = some v) (pad : Byte) (p : Stream) (hp : p <+: v.write S pad) (hpne : p ≠ v.write S pad) :
    MBit.read S p = none := by
  have h := (MBit.C65_roundtrip S hS os ho hb v e pad []).1
  rw [List.append_nil] at h
  cases ep : MBit.read S p with
  | none => rfl
  | some x =>
    exfalso
    obtain ⟨v', r⟩ := x
    obtain ⟨q, hq⟩ := hp
    have := mbit_more S p v' r ep q
    rw [hq, h] at this
    simp only [Option.some.injEq, Prod.mk.injEq] at this
    have hq0 : q = [] := (List.append_eq_nil_iff.1 this.2.symm).2
    subst hq0
    simp at hq
    exact hpne hq

example : ∃ v, MBit.runM 2 (MBit.empty 2) [.set 5 3, .build] = some v ∧ ∀ p, p <+: v.write 2 0#8 → p ≠ v.write 2 0#8 → MBit.read 2 p = none :=
  ⟨_, rfl, fun p => C97_cut_multi_bit_vector 2 (by decide) [.set 5 3, .build] (by simp [MBit.Op.Ok]) (by simp) _ rfl 0#8 p⟩

/-! ### The hypotheses can be met -/

example : ∃ v r, BV.read [3#8, 0, 0, 0, 0, 0, 0, 0, 1, 0, 0, 0, 0, 0, 0, 0, 5, 0, 0, 0, 0, 0, 0, 0, 9] = some (v, r) ∧ v.size = 3 ∧ r = [9#8] :=
  ⟨_, _, rfl, rfl, rfl⟩

example : MBit.padLen 2 = 0 := by decide

example : ∃ t, Samc.buildDict 32 Samc.sample = some t ∧ [] <+: t.write 32 ∧ ([] : Stream) ≠ t.write 32 := by
  obtain ⟨t, h, _⟩ := Samc.C67_dict_roundtrip 32 (by decide) (by decide) Samc.sample (by decide) (by decide) 3 (by decide) (by decide) (by decide) []
  exact ⟨t, h, List.nil_prefix, by simp [Samc.Dict.write, Samc.Samc.write, writeString, writeVal]⟩

/-- The code type of 8 bits is enough for the twelve keys of the sample, though not under the condition of `C97_cut_samc_dict`. -/
example : ∃ t, Samc.buildDict 8 Samc.twelve = some t ∧ ∀ p, p <+: t.write 8 → p ≠ t.write 8 → Samc.readDict 8 p = none := by
  have hl : (Samc.buildDict 8 Samc.twelve).map (fun t => t.samc.storage.length) = some 25 := by decide +kernel
  obtain ⟨t, et, hl⟩ := Option.map_eq_some_iff.1 hl
  exact ⟨t, et, C97_cut_samc_dict_fits 8 (by decide) (by decide) (by decide) Samc.twelve (by decide) (by decide) 1 (by decide) (by decide) t et (by omega)⟩

end Verif.Serial

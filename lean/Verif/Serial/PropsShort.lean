/-
Property theorems C122: reading a file that was cut off, with the error state of the stream.
-/
import Verif.Serial.Short
import Verif.Serial.PropsCut

namespace Verif.Serial

theorem Agree.cut {α : Type} {m : R α} {rd : Stream → Option (α × Stream)} (h : Agree m rd) {p : Stream} (hp : rd p = none) :
    ∀ x s, m ⟨p, true⟩ = some (x, s) → s.good = false := by
  intro x s e
  cases hg : s.good with
  | false => rfl
  | true => rw [h.good p x s e hg] at hp; cases hp

/-- C122 (`BitVector`): into any object, the whole file gives the vector and leaves the stream good; a file that was cut off has an undefined
result or leaves the stream failed. -/
theorem C122_bit_vector (v : BV.BVec) (l : List Bool) (h : BV.Built v l) (hsz : l.length < 2 ^ 64) (old : BV.BVec) :
    (∀ rest, bvReadS old ⟨v.write ++ rest, true⟩ = some (v, ⟨rest, true⟩)) ∧
    ∀ p, p <+: v.write → p ≠ v.write → ∀ x s, bvReadS old ⟨p, true⟩ = some (x, s) → s.good = false :=
  ⟨fun rest => (agree_bv old).full _ _ _ (BV.C19_roundtrip v l h hsz rest).1,
    fun p hp hne => (agree_bv old).cut (C97_cut_bit_vector v l h hsz p hp hne)⟩

example := fun v h => C122_bit_vector v [true, false, true] h (by decide) ⟨64, [7#64]⟩

/-- C122 (`SuccinctBitVector`). -/
theorem C122_succinct (us : Bool) (v : BV.BVec) (l : List Bool) (h : BV.Built v l) (hsz : l.length < 2 ^ 41) :
    ∃ s, Succ.build us v = some s ∧ ∀ old, (∀ rest, succReadS us old ⟨s.write us ++ rest, true⟩ = some (s, ⟨rest, true⟩)) ∧
      ∀ p, p <+: s.write us → p ≠ s.write us → ∀ x st, succReadS us old ⟨p, true⟩ = some (x, st) → st.good = false := by
  obtain ⟨s, e, h1⟩ := C97_cut_succinct us v l h hsz
  refine ⟨s, e, fun old => ⟨fun rest => (agree_succ us old).full _ _ _ ?_, fun p hp hne => (agree_succ us old).cut (h1 p hp hne)⟩⟩
  obtain ⟨s', e', h2, _⟩ := Succ.C23_roundtrip us v l h hsz rest
  cases e.symm.trans e'
  exact h2

example := fun v h => C122_succinct true v (List.replicate 700 true) h (by rw [List.length_replicate]; decide)

/-- C122 (`FitVector`). -/
theorem C122_fit_vector (w : Nat) (h1 : 1 ≤ w) (h63 : w ≤ 63) (i : Fit.Init) (hi : Fit.initOk w i) (os : List Fit.Op)
    (ho : Fit.opsOk w (Fit.specInit i).length os) (v0 v : Fit.FVec) (e0 : Fit.runInit w i = some v0) (e : Fit.runOps v0 os = some v)
    (hsz : v.size * w < 2 ^ 64) :
    (∀ rest, fitReadS ⟨v.write ++ rest, true⟩ = some (v, ⟨rest, true⟩)) ∧
    ∀ p, p <+: v.write → p ≠ v.write → ∀ x s, fitReadS ⟨p, true⟩ = some (x, s) → s.good = false :=
  ⟨fun rest => agree_fit.full _ _ _ (Fit.C27_roundtrip w h1 h63 i hi os ho v0 v e0 e hsz rest).1,
    fun p hp hne => agree_fit.cut (C97_cut_fit_vector w h1 h63 i hi os ho v0 v e0 e hsz p hp hne)⟩

example := C122_fit_vector 13 (by decide) (by decide) (.sizeVal 30 5000) (by simp [Fit.initOk]) [] trivial _ _ rfl rfl (by decide)

/-- C122 (`WaveletTree`), into a tree with the right number of nodes. -/
theorem C122_wavelet_tree (vec : List Nat) (hne : vec ≠ []) (hv : ∀ v ∈ vec, v < 2 ^ 30) (hl : vec.length < 2 ^ 41) :
    ∃ t, Wave.make vec = some t ∧ ∀ old : Wave.WT, old.nodes.length = t.nodes.length →
      (∀ rest, waveReadS old ⟨t.write ++ rest, true⟩ = some (t, ⟨rest, true⟩)) ∧
      ∀ p, p <+: t.write → p ≠ t.write → ∀ x s, waveReadS old ⟨p, true⟩ = some (x, s) → s.good = false := by
  obtain ⟨t, e, h1⟩ := C97_cut_wavelet_tree vec hne hv hl
  refine ⟨t, e, fun old ho => ⟨fun rest => (agree_wave old).full _ _ _ ?_, fun p hp hne => (agree_wave old).cut (h1 old p ho hp hne)⟩⟩
  obtain ⟨t', e', _, h2⟩ := Wave.C37_roundtrip vec hne hv hl
  cases e.symm.trans e'
  exact h2 old rest ho

example := C122_wavelet_tree [3, 1, 200, 3] (by decide) (by decide) (by decide)

/-- C122 (`MultipleVector`), into a new object. -/
theorem C122_multiple_vector (sizes : List Nat) (hne : sizes ≠ []) (hs : ∀ s ∈ sizes, 1 ≤ s ∧ s ≤ 8) (os : List Mult.Op)
    (ho : Mult.opsOk sizes [] os) (v : Mult.MVec) (e : Mult.runOps (Mult.new sizes) os = some v) (hb : v.bytes.length < 2 ^ 64)
    (hk : sizes.length < 2 ^ 64) :
    (∀ rest, multReadS (Mult.new []) ⟨v.store ++ rest, true⟩ = some (v, ⟨rest, true⟩)) ∧
    ∀ p, p <+: v.store → p ≠ v.store → ∀ x s, multReadS (Mult.new []) ⟨p, true⟩ = some (x, s) → s.good = false :=
  ⟨fun rest => (agree_mult _).full _ _ _ (Mult.C29_roundtrip sizes hne hs os ho v e hb hk rest).1,
    fun p hp hpne => (agree_mult _).cut (C97_cut_multiple_vector sizes hne hs os ho v e hb hk p hp hpne)⟩

example := C122_multiple_vector [1, 2] (by decide) (by decide) [.pushBack [300, 7]] (by simp [Mult.opsOk, Mult.opOk]) _ rfl (by decide) (by decide)

/-- C122 (`DacVector`). -/
theorem C122_dac_vector (split : List Nat → Option (List Nat)) (list units : List Nat) (hne : list ≠ []) (hl : ∀ v ∈ list, v < 2 ^ 63)
    (hn : list.length < 2 ^ 31) (hu : Dac.UnitsOk list units) (hun : units.length < 2 ^ 64) :
    ∃ d b, Dac.make split list units = some d ∧ d.write = some b ∧ (∀ rest, dacReadS ⟨b ++ rest, true⟩ = some (d, ⟨rest, true⟩)) ∧
      ∀ p, p <+: b → p ≠ b → ∀ x s, dacReadS ⟨p, true⟩ = some (x, s) → s.good = false := by
  obtain ⟨d, b, e, eb, h1⟩ := C97_cut_dac_vector split list units hne hl hn hu hun
  refine ⟨d, b, e, eb, fun rest => agree_dac.full _ _ _ ?_, fun p hp hne => agree_dac.cut (h1 p hp hne)⟩
  obtain ⟨d', b', e', eb', h2, _⟩ := Dac.C33_roundtrip split list units hne hl hn hu hun rest
  cases e.symm.trans e'
  cases eb.symm.trans eb'
  exact h2

example := C122_dac_vector (fun _ => none) [3, 700, 0, 66000, 5] [4, 5, 8] (by decide) (by decide) (by decide)
  ⟨by decide, by decide, by decide, 66000, by decide, by decide +kernel⟩ (by decide)

/-- C122 (`Samc`); a row of the table of codes of any object has 256 entries. -/
theorem C122_samc (W : Nat) (legacy : Bool) (hW1 : 1 ≤ W) (hW : W ≤ 64) (h8 : W % 8 = 0) (keys : List Samc.Key)
    (hnul : ∀ k ∈ keys, (0 : Byte) ∉ k) (L : Nat) (hL : ∀ k ∈ keys, k.length ≤ L)
    (hbig : (L + 2) * (1 + (L + 1) * (keys.length * keys.length)) < 2 ^ 64) (s : Samc.Samc) (hs : Samc.build W legacy keys = some s)
    (old : Samc.Samc) (hold : ∀ r ∈ old.code, r.length = 256) :
    (∀ rest, samcReadS W old ⟨s.write W ++ rest, true⟩ = some (s, ⟨rest, true⟩)) ∧
    ∀ p, p <+: s.write W → p ≠ s.write W → ∀ x st, samcReadS W old ⟨p, true⟩ = some (x, st) → st.good = false :=
  ⟨fun rest => (agree_samc W old hold).full _ _ _ (Samc.C67_samc_fits W legacy hW1 hW h8 keys hnul L hL hbig s hs rest).1,
    fun p hp hpne => (agree_samc W old hold).cut (C97_cut_samc_fits W legacy hW1 hW h8 keys hnul L hL hbig s hs p hp hpne)⟩

example : ∃ s, Samc.build 8 false Samc.twelve = some s ∧
    ∀ p, p <+: s.write 8 → p ≠ s.write 8 → ∀ x st, samcReadS 8 ⟨[1, 2], [List.replicate 256 7], [3]⟩ ⟨p, true⟩ = some (x, st) → st.good = false := by
  obtain ⟨s, e⟩ := Option.isSome_iff_exists.1 (show (Samc.build 8 false Samc.twelve).isSome by decide +kernel)
  exact ⟨s, e, (C122_samc 8 false (by decide) (by decide) (by decide) Samc.twelve (by decide) 1 (by decide) (by decide) s e _
    (by intro r hr; rw [List.mem_singleton.1 hr, List.length_replicate])).2⟩

/-- C122 (`SamcDict`). -/
theorem C122_samc_dict (W : Nat) (hW1 : 1 ≤ W) (hW : W ≤ 64) (h8 : W % 8 = 0) (keys : List Samc.Key) (hne : keys ≠ [])
    (hnul : ∀ k ∈ keys, (0 : Byte) ∉ k) (L : Nat) (hL : ∀ k ∈ keys, k.length ≤ L)
    (hbig : (L + 2) * (1 + (L + 1) * (keys.length * keys.length)) < 2 ^ 64) (t : Samc.Dict) (ht : Samc.buildDict W keys = some t)
    (hsz : t.samc.storage.length < 2 ^ 41) (old : Samc.Dict) (hold : ∀ r ∈ old.samc.code, r.length = 256) :
    (∀ rest, dictReadS W old ⟨t.write W ++ rest, true⟩ = some (t, ⟨rest, true⟩)) ∧
    ∀ p, p <+: t.write W → p ≠ t.write W → ∀ x st, dictReadS W old ⟨p, true⟩ = some (x, st) → st.good = false :=
  ⟨fun rest => (agree_dict W old hold).full _ _ _ (Samc.C67_dict_fits W hW1 hW h8 keys hne hnul L hL hbig t ht hsz rest).1,
    fun p hp hpne => (agree_dict W old hold).cut (C97_cut_samc_dict_fits W hW1 hW h8 keys hne hnul L hL hbig t ht hsz p hp hpne)⟩

example := fun t ht h => C122_samc_dict 32 (by decide) (by decide) (by decide) Samc.sample (by decide) (by decide) 3 (by decide) (by decide) t ht h
  ⟨⟨[], [], []⟩, Succ.default⟩ (by simp)

/-- C122 (`SuffixArray`), for texts of any bytes. -/
theorem C122_suffix_array (str : List Byte) (hmax : str.length + 1 < 2 ^ 31) (o : SA.SufArr) (hb : SA.build str = some o) :
    (∀ rest, saReadS ⟨o.write ++ rest, true⟩ = some (o, ⟨rest, true⟩)) ∧
    ∀ p, p <+: o.write → p ≠ o.write → ∀ x s, saReadS ⟨p, true⟩ = some (x, s) → s.good = false :=
  ⟨fun rest => agree_sa.full _ _ _ (SA.C64_any str hmax o hb rest).1,
    fun p hp hne => agree_sa.cut (C97_cut_suffix_array_any str hmax o hb p hp hne)⟩

example := C122_suffix_array [98, 97] (by decide) _ (Option.some_get (x := SA.build [98, 97]) (by decide +kernel)).symm

/-- C122 (`MultiBitVector`), whatever the padding; any object has `2 ^ S` vectors of directory entries, and each entry an array of `tipSize S`. -/
theorem C122_multi_bit_vector (S : Nat) (hS : S = 1 ∨ S = 2 ∨ S = 3) (os : List MBit.Op) (ho : ∀ o ∈ os, o.Ok S)
    (hb : ∀ o ∈ os, match o with | .set i _ => i < 2 ^ 57 | .resize i => i < 2 ^ 57 | .build => True)
    (v : MBit.MBV) (e : MBit.runM S (MBit.empty S) os = some v) (pad : Byte)
    (old : MBit.MBV) (h2 : old.tips.length = 2 ^ S) (h : ∀ ts ∈ old.tips, ∀ t ∈ ts, t.2.length = MBit.tipSize S) :
    (∀ rest, mbitReadS S old ⟨v.write S pad ++ rest, true⟩ = some (v, ⟨rest, true⟩)) ∧
    ∀ p, p <+: v.write S pad → p ≠ v.write S pad → ∀ x s, mbitReadS S old ⟨p, true⟩ = some (x, s) → s.good = false :=
  ⟨fun rest => (agree_mbit S old h2 h).full _ _ _ (MBit.C65_roundtrip S hS os ho hb v e pad rest).1,
    fun p hp hne => (agree_mbit S old h2 h).cut (C97_cut_multi_bit_vector S hS os ho hb v e pad p hp hne)⟩

example := C122_multi_bit_vector 2 (by decide) [.set 5 3, .build] (by simp [MBit.Op.Ok]) (by simp) _ rfl 0#8 (MBit.empty 2) (by decide)
  (by intro ts h t ht; rw [(List.mem_replicate.1 h).2] at ht; cases ht)

/-- C122 (`BitVector`, exactly): a file cut off within its first 16 bytes has an undefined result; cut off at a later byte, the vector gets the
right size, the bits that were in the file, for the others the bits it had before (zeros where it had no word), and the stream has failed. -/
theorem C122_bit_vector_exact (v : BV.BVec) (l : List Bool) (h : BV.Built v l) (hsz : l.length < 2 ^ 64) (c : Nat) :
    (c < 16 → ∀ old, bvReadS old ⟨v.write.take c, true⟩ = none) ∧
    (16 ≤ c → c < v.write.length → ∀ old, ∃ x, bvReadS old ⟨v.write.take c, true⟩ = some (x, ⟨[], false⟩) ∧ x.size = l.length ∧
      ∀ i (hi : i < l.length), x.get i = some (if i < 8 * (c - 16) then l[i] else (old.get i).getD false)) := by
  have hr := h.rep
  have hl1 := writeVal_length 8 v.size
  generalize hws : v.words.map BitVec.toNat = ws
  have hl2 := writeVal_length 8 ws.length
  have hw : v.write = writeVal 8 v.size ++ (writeVal 8 ws.length ++ (ws.map (writeVal 8)).flatten) := by rw [BV.BVec.write, hws, writeVec]
  have hfl : ((ws.map (writeVal 8)).flatten).length = 8 * ws.length := by
    rw [List.length_flatten, List.map_map, show (List.length ∘ writeVal 8) = fun _ => 8 from funext (writeVal_length 8), List.map_const',
      List.sum_replicate]
    simp [Nat.mul_comm]
  have hlw : l.length ≤ 64 * ws.length ∧ ws.length < 2 ^ 64 := by
    rw [← hws, List.length_map, hr.words, hr.size, BV.wordSize]
    split <;> omega
  have hvs : v.size < 2 ^ 64 := hr.size ▸ hsz
  have hcut : 8 ≤ c → v.write.take c = writeVal 8 v.size ++ (writeVal 8 ws.length ++ (ws.map (writeVal 8)).flatten).take (c - 8) := by
    intro h8
    rw [hw, List.take_append, hl1, List.take_of_length_le (by omega)]
  refine ⟨?_, ?_⟩
  · intro hc old
    by_cases h8 : c < 8
    · exact R.bind_none (readValS_short 8 _ (by rw [List.length_take]; omega))
    · rw [hcut (by omega)]
      refine (R.bind_some (readValS_write v.size hvs _)).trans (R.bind_none (R.bind_none (readValS_short 8 _ ?_)))
      rw [List.length_take]; omega
  · intro h16 hc old
    rw [hw, List.length_append, List.length_append, hl1, hl2, hfl] at hc
    rw [hcut (by omega), List.take_append, hl2, List.take_of_length_le (i := c - 8) (l := writeVal 8 ws.length) (by omega),
      show c - 8 - 8 = c - 16 by omega]
    generalize hm : c - 16 = m
    have hlt : (((ws.map (writeVal 8)).flatten).take m).length = m := by rw [List.length_take, hfl]; omega
    generalize hos : vresize (old.words.map BitVec.toNat) ws.length 0 = os
    have hol : os.length = ws.length := by rw [← hos, vresize_length]
    have holt : ∀ o ∈ os, o < 256 ^ 8 := by
      intro o ho
      rw [← hos, vresize, List.mem_append] at ho
      rcases ho with ho | ho
      · obtain ⟨w, -, rfl⟩ := List.mem_map.1 (List.mem_of_mem_take ho)
        exact w.isLt
      · rw [(List.mem_replicate.1 ho).2]; decide
    refine ⟨_, (R.bind_some (readValS_write v.size hvs _)).trans (R.bind_some
      (a := (ws.zip os).mapIdx fun i p => p.1 % 256 ^ (min 8 (m - 8 * i)) + 256 ^ (min 8 (m - 8 * i)) * (p.2 / 256 ^ (min 8 (m - 8 * i))))
      (s' := ⟨[], false⟩) ((R.bind_some (readValS_write ws.length hlw.2 _)).trans ?_)), hr.size, ?_⟩
    · simp only [IS.read, if_true]
      rw [List.take_of_length_le (by omega), List.drop_eq_nil_of_le (by omega), hlt, decide_eq_false (by omega), hos, overlay_cut 8 ws os m hol holt]
    · intro i hi
      have hk : i / 64 < v.words.length := by rw [← hws, List.length_map] at hlw; omega
      have hkw : i / 64 < ws.length := by omega
      have hbit := hr.bits i hi
      have ho : i % 64 < 64 := Nat.mod_lt _ (by decide)
      rw [BV.bitAt, List.getD_eq_getElem?_getD, List.getElem?_eq_getElem hk, Option.getD_some] at hbit
      have hold : (old.get i).getD false = (os[i / 64]'(by omega)).testBit (i % 64) := by
        obtain ⟨o, hoe⟩ : ∃ o, os[i / 64]'(by omega) = o := ⟨_, rfl⟩
        have hg : os[i / 64]? = some o := by rw [← hoe]; exact List.getElem?_eq_getElem _
        rw [hoe]
        rw [← hos, vresize_getElem?] at hg
        unfold BV.BVec.get
        rw [if_pos hkw, Option.some.injEq] at hg
        cases hw : old.words[i / 64]? with
        | none =>
          rw [dif_neg (by have := List.getElem?_eq_none_iff.1 hw; rw [List.length_map]; omega)] at hg
          rw [← hg]
          simp
        | some w =>
          obtain ⟨h1, h2⟩ := List.getElem?_eq_some_iff.1 hw
          rw [dif_pos (by rw [List.length_map]; exact h1), List.getElem_map, h2] at hg
          rw [← hg]
          simp only [Option.bind_eq_bind, Option.bind_some, Bits.offsetMask, ho, if_true, Option.pure_def, Option.getD_some]
          rw [BV.and_offset_ne _ _ ho]
          rfl
      rw [hold]
      generalize hoi : os[i / 64]'(by omega) = o
      have hwi : ws[i / 64]'hkw = (v.words[i / 64]).toNat := by simp [← hws]
      have hx : (((ws.zip os).mapIdx fun i p => p.1 % 256 ^ (min 8 (m - 8 * i)) + 256 ^ (min 8 (m - 8 * i)) * (p.2 / 256 ^ (min 8 (m - 8 * i)))).map
          (BitVec.ofNat 64))[i / 64]? =
          some (BitVec.ofNat 64 ((v.words[i / 64]).toNat % 2 ^ (8 * min 8 (m - 8 * (i / 64))) + 2 ^ (8 * min 8 (m - 8 * (i / 64))) *
            (o / 2 ^ (8 * min 8 (m - 8 * (i / 64)))))) := by
        rw [List.getElem?_map, List.getElem?_mapIdx, List.getElem?_eq_getElem (by rw [List.length_zip]; omega)]
        simp only [List.getElem_zip, Option.map_some, hwi, hoi, show (256 : Nat) = 2 ^ 8 from rfl, ← Nat.pow_mul]
      unfold BV.BVec.get
      simp only [hx, Option.bind_eq_bind, Option.bind_some, Bits.offsetMask, ho, if_true, Option.pure_def]
      rw [BV.and_offset_ne _ _ ho, BitVec.getLsbD_ofNat, Nat.add_comm, Nat.testBit_two_pow_mul_add _ (Nat.mod_lt _ (Nat.pow_pos (by decide))), ← hbit]
      simp only [ho, decide_true, Bool.true_and, BitVec.getLsbD]
      by_cases hc2 : i < 8 * m
      · rw [if_pos hc2, if_pos (by omega), Nat.testBit_mod_two_pow, decide_eq_true (by omega), Bool.true_and]
      · rw [if_neg hc2, if_neg (by omega), Nat.testBit_div_two_pow]
        congr 2
        omega

/-- A vector of 100 bits whose file was cut off after 20 bytes: the first 32 bits are there. -/
example := fun v h => (C122_bit_vector_exact v (List.replicate 100 true) h (by rw [List.length_replicate]; decide) 20).2 (by decide)

end Verif.Serial

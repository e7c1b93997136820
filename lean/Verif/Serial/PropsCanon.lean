/-
Property theorems C97 (what is read is written back byte for byte, and no file that was cut off is read).
-/
import Verif.Serial.Canon
import Verif.BV.Model
import Verif.Succ.Model
import Verif.Fit.Model
import Verif.Wave.Model
import Verif.Mult.Model
import Verif.MBit.Model
import Verif.Dac.Model
import Verif.Samc.Model
import Verif.SA.Model

namespace Verif.Serial

theorem map_self {α : Type} (f : α → α) : ∀ l : List α, (∀ x ∈ l, f x = x) → l.map f = l := by
  intro l
  induction l with
  | nil => intro _; rfl
  | cons a l ih => intro h; rw [List.map_cons, h a (by simp), ih fun x hx => h x (by simp [hx])]

theorem map_words (ws : List Nat) (h : ∀ x ∈ ws, x < 256 ^ 8) : (ws.map (BitVec.ofNat 64)).map BitVec.toNat = ws := by
  rw [List.map_map]
  apply map_self
  intro x hx
  have := h x hx
  simp only [Function.comp, BitVec.toNat_ofNat]
  exact Nat.mod_eq_of_lt (by simpa using this)

/-- C97 for `BitVector`. -/
theorem C97_bit_vector : Canon BV.read BV.BVec.write := by
  intro b v r e
  unfold BV.read at e
  cases e1 : readVal 8 b with
  | none => simp [e1] at e
  | some x =>
    obtain ⟨n, s⟩ := x
    cases e2 : readVec 8 s with
    | none => simp [e1, e2] at e
    | some y =>
      obtain ⟨ws, t⟩ := y
      simp only [e1, e2, Option.bind_eq_bind, Option.bind_some, Option.pure_def, Option.some.injEq, Prod.mk.injEq] at e
      obtain ⟨rfl, rfl⟩ := e
      obtain ⟨k1, k2⟩ := canon_val 8 b n s e1
      obtain ⟨l1, l2⟩ := canon_vec 8 s ws t e2
      have hw := map_words ws (readVec_lt 8 s ws t e2)
      refine ⟨?_, fun q => ?_⟩
      · simp only [BV.BVec.write, hw]
        rw [k1, l1]; simp
      · simp only [BV.BVec.write, hw, BV.read, List.append_assoc, k2, l2, Option.bind_eq_bind, Option.bind_some, Option.pure_def]

/-- C97 for `SuccinctBitVector`, with and without select. -/
theorem C97_succinct (useSelect : Bool) : Canon (Succ.read useSelect) (Succ.SBV.write useSelect) := by
  intro b v r e
  unfold Succ.read at e
  cases e1 : BV.read b with
  | none => simp [e1] at e
  | some x =>
    obtain ⟨bv, s⟩ := x
    cases e2 : readVec 8 s with
    | none => simp [e1, e2] at e
    | some y =>
      obtain ⟨ws, t⟩ := y
      obtain ⟨k1, k2⟩ := C97_bit_vector b bv s e1
      obtain ⟨l1, l2⟩ := canon_vec 8 s ws t e2
      cases useSelect with
      | false =>
        simp only [e1, e2, Option.bind_eq_bind, Option.bind_some, Option.pure_def, Option.some.injEq, Prod.mk.injEq, Bool.false_eq_true, if_false] at e
        obtain ⟨rfl, rfl⟩ := e
        refine ⟨?_, fun q => ?_⟩
        · simp only [Succ.SBV.write]
          rw [k1, l1]; simp
        · simp [Succ.SBV.write, Succ.read, List.append_assoc, k2, l2]
      | true =>
        cases e3 : readVec 4 t with
        | none => simp [e1, e2, e3] at e
        | some z =>
          obtain ⟨ts, u⟩ := z
          obtain ⟨m1, m2⟩ := canon_vec 4 t ts u e3
          simp only [e1, e2, e3, Option.bind_eq_bind, Option.bind_some, Option.pure_def, Option.some.injEq, Prod.mk.injEq, if_true] at e
          obtain ⟨rfl, rfl⟩ := e
          refine ⟨?_, fun q => ?_⟩
          · simp only [Succ.SBV.write]
            rw [k1, l1, m1]; simp
          · simp [Succ.SBV.write, Succ.read, List.append_assoc, k2, l2, m2]

/-- C97 for `FitVector`. -/
theorem C97_fit_vector : Canon Fit.read Fit.FVec.write := by
  intro b v r e
  unfold Fit.read Fit.new at e
  cases e0 : readVal 8 b with
  | none => simp [e0] at e
  | some x =>
    obtain ⟨w, s0⟩ := x
    cases em : Bits.widthMask w with
    | none => simp [e0, em] at e
    | some m =>
      cases e1 : readVal 8 s0 with
      | none => simp [e0, e1, em] at e
      | some x =>
        obtain ⟨n, s⟩ := x
        cases e2 : readVec 8 s with
        | none => simp [e0, e1, e2, em] at e
        | some y =>
          obtain ⟨ws, t⟩ := y
          simp only [e0, e1, e2, em, Option.bind_eq_bind, Option.bind_some, Option.pure_def, Option.some.injEq, Prod.mk.injEq] at e
          obtain ⟨rfl, rfl⟩ := e
          obtain ⟨j1, j2⟩ := canon_val 8 b w s0 e0
          obtain ⟨k1, k2⟩ := canon_val 8 s0 n s e1
          obtain ⟨l1, l2⟩ := canon_vec 8 s ws t e2
          have hw := map_words ws (readVec_lt 8 s ws t e2)
          refine ⟨?_, fun q => ?_⟩
          · simp only [Fit.FVec.write, hw]
            rw [j1, k1, l1]; simp
          · simp only [Fit.FVec.write, hw, Fit.read, Fit.new, List.append_assoc, j2, k2, l2, em, Option.bind_eq_bind, Option.bind_some,
              Option.pure_def]

/-- C97 for `WaveletTree`, read into a tree with the same number of nodes. -/
theorem C97_wavelet_tree (old : Wave.WT) : Canon old.read Wave.WT.write := by
  have nodes : ∀ (ns : List Succ.SBV) b v r, Wave.readNodes ns b = some (v, r) → b = (v.map (Succ.SBV.write false)).flatten ++ r ∧
      ∀ q, Wave.readNodes ns ((v.map (Succ.SBV.write false)).flatten ++ q) = some (v, q) := by
    intro ns
    have h := canon_many (C97_succinct false) (fun n s => Wave.readNodes (List.replicate n (⟨⟨0, []⟩, [], []⟩ : Succ.SBV)) s)
      (fun _ => rfl) (fun _ _ => rfl) ns.length
    have hsame : ∀ (ns : List Succ.SBV) s, Wave.readNodes ns s = Wave.readNodes (List.replicate ns.length (⟨⟨0, []⟩, [], []⟩ : Succ.SBV)) s := by
      intro ns
      induction ns with
      | nil => intro s; rfl
      | cons a ns ih =>
        intro s
        simp only [List.length_cons, List.replicate_succ, Wave.readNodes, ih]
    intro b v r e
    rw [hsame] at e
    obtain ⟨_, g2, g3⟩ := h b v r e
    exact ⟨g2, fun q => by rw [hsame]; exact g3 q⟩
  intro b v r e
  unfold Wave.WT.read at e
  cases e1 : readVal 8 b with
  | none => simp [e1] at e
  | some x =>
    obtain ⟨h, s1⟩ := x
    cases e2 : readVal 8 s1 with
    | none => simp [e1, e2] at e
    | some x =>
      obtain ⟨l, s2⟩ := x
      cases e3 : readVal 8 s2 with
      | none => simp [e1, e2, e3] at e
      | some x =>
        obtain ⟨n, s3⟩ := x
        cases e4 : Wave.readNodes old.nodes s3 with
        | none => simp [e1, e2, e3, e4] at e
        | some x =>
          obtain ⟨ns, s4⟩ := x
          simp only [e1, e2, e3, e4, Option.bind_eq_bind, Option.bind_some, Option.pure_def, Option.some.injEq, Prod.mk.injEq] at e
          obtain ⟨rfl, rfl⟩ := e
          obtain ⟨a1, b1⟩ := canon_val 8 _ _ _ e1
          obtain ⟨a2, b2⟩ := canon_val 8 _ _ _ e2
          obtain ⟨a3, b3⟩ := canon_val 8 _ _ _ e3
          obtain ⟨a4, b4⟩ := nodes _ _ _ _ e4
          refine ⟨?_, fun q => ?_⟩
          · simp only [Wave.WT.write]
            rw [a1, a2, a3, a4]; simp
          · simp only [Wave.WT.write, Wave.WT.read, List.append_assoc, b1, b2, b3, b4, Option.bind_eq_bind, Option.bind_some, Option.pure_def]

/-- C97 for `MultipleVector`, read into an empty object. -/
theorem C97_multiple_vector : Canon (Mult.new []).load Mult.MVec.store := by
  intro b v r e
  unfold Mult.MVec.load at e
  cases e1 : readVec 1 b with
  | none => simp [e1] at e
  | some x =>
    obtain ⟨bs, s⟩ := x
    cases e2 : readVec 8 s with
    | none => simp [e1, e2] at e
    | some y =>
      obtain ⟨sizes, t⟩ := y
      simp only [e1, e2, Option.bind_eq_bind, Option.bind_some, Option.pure_def, Option.some.injEq, Prod.mk.injEq] at e
      obtain ⟨rfl, rfl⟩ := e
      obtain ⟨k1, k2⟩ := canon_vec 1 _ _ _ e1
      obtain ⟨l1, l2⟩ := canon_vec 8 _ _ _ e2
      have hb : (bs.map (BitVec.ofNat 8)).map BitVec.toNat = bs := by
        rw [List.map_map]
        apply map_self
        intro x hx
        have := readVec_lt 1 _ _ _ e1 x hx
        simp only [Function.comp, BitVec.toNat_ofNat]
        exact Nat.mod_eq_of_lt (by simpa using this)
      have hs : ∀ (l : List Nat) p, (Mult.entries l p).map (·.2) = l := by
        intro l
        induction l with
        | nil => intro p; rfl
        | cons a l ih => intro p; simp [Mult.entries, ih]
      refine ⟨?_, fun q => ?_⟩
      · simp only [Mult.MVec.store, Mult.MVec.setElementSizes, Mult.new, Mult.entries, List.nil_append, hb, hs]
        rw [k1, l1]; simp
      · simp only [Mult.MVec.store, Mult.MVec.load, Mult.MVec.setElementSizes, Mult.new, Mult.entries, List.nil_append, hb, hs, List.append_assoc, k2, l2,
          Option.bind_eq_bind, Option.bind_some, Option.pure_def]

/-- C97 for `MultiBitVector` whose tips have no padding (two bits). -/
theorem C97_multi_bit_vector (S : Nat) (hS : MBit.padLen S = 0) (pad : Byte) : Canon (MBit.read S) (MBit.MBV.write S pad) := by
  have tip : Canon (MBit.readTip S) (MBit.writeTip S pad) := by
    intro b v r e
    unfold MBit.readTip at e
    cases e1 : readVal 8 b with
    | none => simp [e1] at e
    | some x =>
      obtain ⟨l1, s⟩ := x
      simp only [e1, Option.bind_eq_bind, Option.bind_some, Option.pure_def, hS, Nat.add_zero] at e
      split at e
      case isFalse => cases e
      case isTrue h =>
        simp only [Option.some.injEq, Prod.mk.injEq] at e
        obtain ⟨rfl, rfl⟩ := e
        obtain ⟨k1, k2⟩ := canon_val 8 _ _ _ e1
        have hm : ((s.take (MBit.tipSize S)).map BitVec.toNat).map (BitVec.ofNat 8) = s.take (MBit.tipSize S) := by
          rw [List.map_map]
          apply map_self
          intro x _
          simp [Function.comp]
        have hl : (s.take (MBit.tipSize S)).length = MBit.tipSize S := by simp; omega
        refine ⟨?_, fun q => ?_⟩
        · simp only [MBit.writeTip, hm, hS, List.replicate_zero, List.append_nil, List.append_assoc, List.take_append_drop]
          exact k1
        · simp only [MBit.writeTip, MBit.readTip, hm, hS, List.replicate_zero, List.append_nil, List.append_assoc, k2, Option.bind_eq_bind,
            Option.bind_some, Option.pure_def, Nat.add_zero]
          rw [if_pos (by simp; omega), List.take_append_of_le_length (by omega), List.drop_append_of_le_length (by omega),
            List.take_of_length_le (by omega), List.drop_of_length_le (by omega)]
          rfl
  have tips : Canon (MBit.readTips S) (MBit.writeTips S pad) :=
    (canon_counted (wr := MBit.writeTip S pad) (MBit.readMany (MBit.readTip S))
      (canon_many tip (MBit.readMany (MBit.readTip S)) (fun _ => rfl) (fun _ _ => rfl)))
  have rows := canon_many tips (MBit.readMany (MBit.readTips S)) (fun _ => rfl) (fun _ _ => rfl) (2 ^ S)
  intro b v r e
  unfold MBit.read at e
  cases e1 : readVec 8 b with
  | none => simp [e1] at e
  | some x =>
    obtain ⟨ws, s⟩ := x
    cases e2 : MBit.readMany (MBit.readTips S) (2 ^ S) s with
    | none => simp [e1, e2] at e
    | some y =>
      obtain ⟨ts, t⟩ := y
      simp only [e1, e2, Option.bind_eq_bind, Option.bind_some, Option.pure_def, Option.some.injEq, Prod.mk.injEq] at e
      obtain ⟨rfl, rfl⟩ := e
      obtain ⟨k1, k2⟩ := canon_vec 8 _ _ _ e1
      obtain ⟨_, l1, l2⟩ := rows _ _ _ e2
      have hw := map_words ws (readVec_lt 8 _ _ _ e1)
      refine ⟨?_, fun q => ?_⟩
      · simp only [MBit.MBV.write, hw]
        rw [k1, l1]; simp
      · simp only [MBit.MBV.write, MBit.read, hw, List.append_assoc, k2, l2, Option.bind_eq_bind, Option.bind_some, Option.pure_def]

example := C97_multi_bit_vector 2 (by decide) 7#8

/-- C97 for `DacVector`. -/
theorem C97_dac_vector : ∀ b d r, Dac.read b = some (d, r) → ∃ w, d.write = some w ∧ b = w ++ r ∧ ∀ q, Dac.read (w ++ q) = some (d, q) := by
  intro b v r e
  unfold Dac.read at e
  cases e1 : readVal 8 b with
  | none => simp [e1] at e
  | some x =>
    obtain ⟨n, s1⟩ := x
    cases e2 : Dac.readMany (readVal 8) n s1 with
    | none => simp [e1, e2] at e
    | some x =>
      obtain ⟨us, s2⟩ := x
      cases e3 : Dac.readMany Fit.read n s2 with
      | none => simp [e1, e2, e3] at e
      | some x =>
        obtain ⟨ls, s3⟩ := x
        cases e4 : Dac.readMany (Succ.read false) (n - 1) s3 with
        | none => simp [e1, e2, e3, e4] at e
        | some x =>
          obtain ⟨ps, s4⟩ := x
          simp only [e1, e2, e3, e4, Option.bind_eq_bind, Option.bind_some, Option.pure_def, Option.some.injEq, Prod.mk.injEq] at e
          obtain ⟨rfl, rfl⟩ := e
          obtain ⟨a1, b1⟩ := canon_val 8 _ _ _ e1
          obtain ⟨_, a2, b2⟩ := canon_many (canon_val 8) (Dac.readMany (readVal 8)) (fun _ => rfl) (fun _ _ => rfl) n _ _ _ e2
          obtain ⟨_, a3, b3⟩ := canon_many C97_fit_vector (Dac.readMany Fit.read) (fun _ => rfl) (fun _ _ => rfl) n _ _ _ e3
          obtain ⟨_, a4, b4⟩ := canon_many (C97_succinct false) (Dac.readMany (Succ.read false)) (fun _ => rfl) (fun _ _ => rfl) (n - 1) _ _ _ e4
          refine ⟨_, rfl, ?_, fun q => ?_⟩
          · rw [a1, a2, a3, a4]; simp
          · simp only [Dac.read, List.append_assoc, b1, b2, b3, b4, Option.bind_eq_bind, Option.bind_some, Option.pure_def]

/-- C97 for `Samc`. -/
theorem C97_samc (W : Nat) : Canon (Samc.read W) (Samc.Samc.write W) := by
  have row : Canon (fun s => readElems (W / 8) 256 s) (fun row => (row.map (writeVal (W / 8))).flatten) := by
    intro b v r e
    obtain ⟨_, h1, h2⟩ := elems_canon (W / 8) 256 b v r e
    exact ⟨h1, h2⟩
  have table : Canon (Samc.readTable (W / 8)) (Samc.writeTable (W / 8)) :=
    canon_counted (wr := fun row => (row.map (writeVal (W / 8))).flatten) (Samc.readRows (W / 8))
      (canon_many row (Samc.readRows (W / 8)) (fun _ => rfl) (fun _ _ => rfl))
  intro b v r e
  unfold Samc.read at e
  cases e1 : readString b with
  | none => simp [e1] at e
  | some x =>
    obtain ⟨st, s1⟩ := x
    cases e2 : Samc.readTable (W / 8) s1 with
    | none => simp [e1, e2] at e
    | some x =>
      obtain ⟨tb, s2⟩ := x
      cases e3 : readVec (W / 8) s2 with
      | none => simp [e1, e2, e3] at e
      | some x =>
        obtain ⟨hd, s3⟩ := x
        simp only [e1, e2, e3, Option.bind_eq_bind, Option.bind_some, Option.pure_def, Option.some.injEq, Prod.mk.injEq] at e
        obtain ⟨rfl, rfl⟩ := e
        obtain ⟨a1, b1⟩ := canon_string _ _ _ e1
        obtain ⟨a2, b2⟩ := table _ _ _ e2
        obtain ⟨a3, b3⟩ := canon_vec _ _ _ _ e3
        refine ⟨?_, fun q => ?_⟩
        · simp only [Samc.Samc.write]
          rw [a1, a2, a3]; simp
        · simp only [Samc.read, Samc.Samc.write, List.append_assoc, b1, b2, b3, Option.bind_eq_bind, Option.bind_some, Option.pure_def]

example := C97_samc 32

/-- C97 for `SamcDict`. -/
theorem C97_samc_dict (W : Nat) : Canon (Samc.readDict W) (Samc.Dict.write W) := by
  intro b v r e
  unfold Samc.readDict at e
  cases e1 : Samc.read W b with
  | none => simp [e1] at e
  | some x =>
    obtain ⟨a, s1⟩ := x
    cases e2 : Succ.read true s1 with
    | none => simp [e1, e2] at e
    | some x =>
      obtain ⟨l, s2⟩ := x
      simp only [e1, e2, Option.bind_eq_bind, Option.bind_some, Option.pure_def, Option.some.injEq, Prod.mk.injEq] at e
      obtain ⟨rfl, rfl⟩ := e
      obtain ⟨a1, b1⟩ := C97_samc W _ _ _ e1
      obtain ⟨a2, b2⟩ := C97_succinct true _ _ _ e2
      refine ⟨?_, fun q => ?_⟩
      · simp only [Samc.Dict.write]
        rw [a1, a2]; simp
      · simp only [Samc.readDict, Samc.Dict.write, List.append_assoc, b1, b2, Option.bind_eq_bind, Option.bind_some, Option.pure_def]

example := C97_samc_dict 32

/-- C97 for `SuffixArray`. -/
theorem C97_suffix_array : Canon SA.read SA.SufArr.write := by
  intro b v r e
  unfold SA.read at e
  cases e1 : readString b with
  | none => simp [e1] at e
  | some x =>
    obtain ⟨str, s1⟩ := x
    cases e2 : Fit.read s1 with
    | none => simp [e1, e2] at e
    | some x =>
      obtain ⟨sa, s2⟩ := x
      cases e3 : Fit.read s2 with
      | none => simp [e1, e2, e3] at e
      | some x =>
        obtain ⟨lcp, s3⟩ := x
        simp only [e1, e2, e3, Option.bind_eq_bind, Option.bind_some, Option.pure_def, Option.some.injEq, Prod.mk.injEq] at e
        obtain ⟨rfl, rfl⟩ := e
        obtain ⟨a1, b1⟩ := canon_string _ _ _ e1
        obtain ⟨a2, b2⟩ := C97_fit_vector _ _ _ e2
        obtain ⟨a3, b3⟩ := C97_fit_vector _ _ _ e3
        refine ⟨?_, fun q => ?_⟩
        · simp only [SA.SufArr.write]
          rw [a1, a2, a3]; simp
        · simp only [SA.read, SA.SufArr.write, List.append_assoc, b1, b2, b3, Option.bind_eq_bind, Option.bind_some, Option.pure_def]

end Verif.Serial

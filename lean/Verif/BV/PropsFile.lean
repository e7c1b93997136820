/-
Property theorems C110 (BitVector): the contents determine the written file, if the vector was not cut inside a word.
-/
import Verif.BV.Props
import Verif.Fit.Lemmas

namespace Verif.BV
open Verif.Serial
open Verif.Bits (W64 offsetMask)
open Verif.Fit (bitAt_ge bitAt_vresize_gen)

/-! ### C110 -/

/-- The call does not leave a cut off part of a word behind: it does not shrink the vector, or it shrinks it to a positive multiple of 64 (an empty
vector keeps one word). -/
def wholeOk (n : Nat) : Op → Prop
  | .resize m _ => n ≤ m ∨ 0 < m ∧ m % 64 = 0
  | .assign m _ => n ≤ m ∨ 0 < m ∧ m % 64 = 0
  | _ => True

/-- No call of the history leaves a cut off part of a word behind. -/
def whole (l : List Bool) : List Op → Prop
  | [] => True
  | o :: os => wholeOk l.length o ∧ whole (specStep l o) os

/-- No bits are set behind the end. -/
def Clean (v : BVec) : Prop := ∀ i, v.size ≤ i → bitAt v.words i = false

theorem clean_init (i : Init) (v : BVec) (h : runInit i = some v) : Clean v := by
  cases i with
  | default =>
    cases h
    intro i _
    exact bitAt_replicate 1 i
  | size n =>
    cases h
    intro i _
    exact bitAt_replicate _ _
  | sizeBit n b =>
    obtain ⟨ws, h1, h2, h3⟩ := fill_spec (List.replicate (wordSize n) 0#64) 0 n b (by simpa using wordSize_le n)
    simp only [runInit, ofSizeBit, h1, Option.bind_eq_bind, Option.bind_some, Option.pure_def, Option.some.injEq] at h
    subst h
    intro i hi
    simp only at hi
    rw [h3, if_neg (by omega)]
    exact bitAt_replicate _ _
  | bits l =>
    obtain ⟨ws, h1, h2, h3⟩ := writeSeq_spec l (List.replicate (wordSize l.length) 0#64) 0 (by simpa using wordSize_le l.length)
    simp only [runInit, ofBits, h1, Option.bind_eq_bind, Option.bind_some, Option.pure_def, Option.some.injEq] at h
    subst h
    intro i hi
    simp only at hi
    rw [h3, dif_neg (by omega)]
    exact bitAt_replicate _ _

theorem clean_vresize {ws : List W64} {s n : Nat} (h : ∀ i, s ≤ i → bitAt ws i = false) (hn : s ≤ n ∨ 0 < n ∧ n % 64 = 0) {i : Nat} (hi : n ≤ i) :
    bitAt (vresize ws (wordSize n) 0#64) i = false := by
  rw [bitAt_vresize_gen]
  split
  · rename_i hlt
    rcases hn with hn | hn
    · exact h i (by omega)
    · exfalso
      unfold wordSize at hlt
      split at hlt <;> omega
  · rfl

theorem clean_step (v : BVec) (l : List Bool) (o : Op) (h : Rep v l) (hc : Clean v) (ho : specOk l o) (hw : wholeOk l.length o) (v' : BVec)
    (hv : runStep v o = some v') : Clean v' := by
  obtain ⟨hs, hwd, hb⟩ := h
  have hle : l.length ≤ 64 * v.words.length := by rw [hwd, hs]; exact wordSize_le _
  have hresize : ∀ n b, v.size ≤ n ∨ 0 < n ∧ n % 64 = 0 → v.resize n b = some v' → Clean v' := by
    intro n b hn hv
    unfold BVec.resize at hv
    by_cases h1 : n < v.size
    · rw [if_pos h1, Option.some.injEq] at hv
      subst hv
      intro i hi
      exact clean_vresize hc hn hi
    · rw [if_neg h1] at hv
      by_cases h2 : n > v.size
      · rw [if_pos h2] at hv
        obtain ⟨ws, f1, f2, f3⟩ := fill_spec (vresize v.words (wordSize n) 0#64) v.size n b (by rw [vresize_length]; exact wordSize_le n)
        simp only [f1, Option.bind_eq_bind, Option.bind_some, Option.pure_def, Option.some.injEq] at hv
        subst hv
        intro i hi
        simp only at hi
        rw [f3, if_neg (by omega)]
        exact clean_vresize hc hn hi
      · rw [if_neg h2, Option.some.injEq] at hv
        subst hv
        exact hc
  have hset : ∀ i b, i < l.length → v.set i b = some v' → Clean v' := by
    intro i b ho hv
    obtain ⟨ws, g1, g2, g3⟩ := set_spec v.words i b (by omega)
    have e : v.set i b = ((mkIter i).set v.words b).map (fun ws => ⟨v.size, ws⟩) := by
      unfold BVec.set Iter.set
      have hk : i / 64 < v.words.length := by omega
      have hm : i % 64 < 64 := Nat.mod_lt _ (by decide)
      rw [show (mkIter i).seg = ((i / 64 : Nat) : Int) from rfl, show (mkIter i).ctz = i % 64 from rfl,
        rdSeg_nat _ _ hk, List.getElem?_eq_getElem hk]
      simp only [Option.bind_eq_bind, Option.bind_some, offsetMask, hm, if_true, wrSeg_nat _ _ _ hk]
      simp [List.getD_eq_getElem?_getD, hk, wr]
    rw [e, g1, Option.map_some, Option.some.injEq] at hv
    subst hv
    intro j hj
    simp only at hj
    rw [g3, if_neg (by omega)]
    exact hc j hj
  cases o with
  | set i b => exact hset i b ho hv
  | copy i j =>
    simp only [specOk] at ho
    have hj := ((rep_shows v l ⟨hs, hwd, hb⟩).2.1 j ho.2).1
    simp only [runStep, BVec.copyElem, hj, Option.bind_eq_bind, Option.bind_some] at hv
    exact hset i _ ho.1 hv
  | reserve n => cases hv; exact hc
  | pushBack b => exact hresize (v.size + 1) b (Or.inl (by omega)) hv
  | resize n b =>
    simp only [wholeOk, ← hs] at hw
    exact hresize n b hw hv
  | assign n b =>
    simp only [wholeOk, ← hs] at hw
    obtain ⟨ws, f1, f2, f3⟩ := fill_spec (vresize v.words (wordSize n) 0#64) 0 n b (by rw [vresize_length]; exact wordSize_le n)
    simp only [runStep, BVec.assign, f1, Option.bind_eq_bind, Option.bind_some, Option.pure_def, Option.some.injEq] at hv
    subst hv
    intro i hi
    simp only at hi
    rw [f3, if_neg (by omega)]
    exact clean_vresize hc hw hi
  | fill b e bit =>
    simp only [specOk] at ho
    obtain ⟨ws, f1, f2, f3⟩ := fill_spec v.words b e bit (by omega)
    simp only [runStep, BVec.fillRange] at hv
    rw [mkIter_add, mkIter_add, Nat.zero_add, Nat.zero_add, f1] at hv
    simp only [Option.bind_eq_bind, Option.bind_some, Option.pure_def, Option.some.injEq] at hv
    subst hv
    intro i hi
    simp only at hi
    rw [f3, if_neg (by omega)]
    exact hc i hi

theorem clean_run (os : List Op) : ∀ (v : BVec) (l : List Bool), Rep v l → Clean v → specAllOk l os → whole l os → ∀ v', runOps v os = some v' → Clean v' := by
  induction os with
  | nil =>
    intro v l _ hc _ _ v' hv
    cases hv
    exact hc
  | cons o os ih =>
    intro v l h hc hok hwh v' hv
    obtain ⟨v1, h1, h2⟩ := rep_step v l o h hok.1
    simp only [runOps, h1, Option.bind_eq_bind, Option.bind_some] at hv
    exact ih v1 _ h2 (clean_step v l o h hc hok.1 hwh.1 v1 h1) hok.2 hwh.2 v' hv

theorem clean_unique {a b : BVec} {l : List Bool} (ha : Rep a l) (hb : Rep b l) (ca : Clean a) (cb : Clean b) : a = b := by
  have hsz : a.size = b.size := by rw [ha.size, hb.size]
  have hbit : ∀ i, bitAt a.words i = bitAt b.words i := by
    intro i
    by_cases hi : i < l.length
    · rw [ha.bits i hi, hb.bits i hi]
    · rw [ca i (by rw [ha.size]; omega), cb i (by rw [hb.size]; omega)]
  have hws : a.words = b.words := by
    refine List.ext_getElem (by rw [ha.words, hb.words, hsz]) ?_
    intro k h1 h2
    refine BitVec.eq_of_getLsbD_eq fun j hj => ?_
    have := hbit (64 * k + j)
    unfold bitAt at this
    rw [show (64 * k + j) / 64 = k by omega, show (64 * k + j) % 64 = j by omega] at this
    simpa [List.getD_eq_getElem?_getD, h1, h2] using this
  cases a
  cases b
  simp_all

/-- Two histories that end with the same bits end with the same object, which writes the same file, unless one of them cut the vector inside a word.
Different bits give different files. -/
theorem C110_bitvector (i i' : Init) (os os' : List Op) (h : specAllOk (specInit i) os) (h' : specAllOk (specInit i') os')
    (hw : whole (specInit i) os) (hw' : whole (specInit i') os') (hsz : (specRun (specInit i) os).length < 2 ^ 64)
    (hsz' : (specRun (specInit i') os').length < 2 ^ 64) :
    ∃ a0 a b0 b, runInit i = some a0 ∧ runOps a0 os = some a ∧ runInit i' = some b0 ∧ runOps b0 os' = some b ∧
      (specRun (specInit i) os = specRun (specInit i') os' → a = b) ∧ (a.write = b.write ↔ specRun (specInit i) os = specRun (specInit i') os') := by
  obtain ⟨a0, ea0, ra0⟩ := rep_init i
  obtain ⟨a, ea, ra⟩ := rep_run os a0 _ ra0 h
  obtain ⟨b0, eb0, rb0⟩ := rep_init i'
  obtain ⟨b, eb, rb⟩ := rep_run os' b0 _ rb0 h'
  have ca := clean_run os a0 _ ra0 (clean_init i a0 ea0) h hw a ea
  have cb := clean_run os' b0 _ rb0 (clean_init i' b0 eb0) h' hw' b eb
  have key : specRun (specInit i) os = specRun (specInit i') os' → a = b := fun e => clean_unique ra (e ▸ rb) ca cb
  refine ⟨a0, a, b0, b, ea0, ea, eb0, eb, key, fun hwr => ?_, fun e => by rw [key e]⟩
  have r := read_write a (by rw [ra.size]; exact hsz) ra.words []
  have r' := read_write b (by rw [rb.size]; exact hsz') rb.words []
  rw [hwr, r', Option.some.injEq, Prod.mk.injEq] at r
  obtain ⟨rfl, _⟩ := r
  have e := (rep_shows _ _ ra).2.2.2.1
  have e' := (rep_shows _ _ rb).2.2.2.1
  exact Option.some.inj (e.symm.trans e')

/-- Without the condition the file shows the past: a vector of two ones cut to one element holds the same bit as a new vector, but writes another file. -/
theorem C110_bitvector_cut_domain : ∃ a0 a b, runInit (.sizeBit 2 true) = some a0 ∧ runOps a0 [.resize 1 false] = some a ∧
    runInit (.sizeBit 1 true) = some b ∧ a.toList = b.toList ∧ a.size = b.size ∧ a.write ≠ b.write :=
  ⟨_, _, _, rfl, rfl, rfl, by decide +kernel, by decide +kernel, by decide +kernel⟩

example := C110_bitvector (.bits [true, false]) (.sizeBit 66 true) [.pushBack true, .resize 70 true, .set 1 true] [.resize 64 false, .resize 70 true]
  (by simp [specAllOk, specOk, specStep, specInit]) (by simp [specAllOk, specOk]) (by simp [whole, wholeOk, specStep, specInit])
  (by simp [whole, wholeOk, specStep, specInit]) (by decide +kernel) (by decide +kernel)

example : specRun (specInit (.bits [true, false])) [.pushBack true, .resize 70 true, .set 1 true] =
    specRun (specInit (.sizeBit 66 true)) [.resize 64 false, .resize 70 true] := by decide +kernel

end Verif.BV

/-
The bits of the leaves of a dictionary above its size are zero, and the counts of the portable `sel` for words with few ones.
-/
import Verif.Samc.Props
import Verif.Succ.PropsSel

namespace Verif.Samc
open Verif.BV Verif.Serial
open Verif.Bits (W64 W32 ones onesBelow lost)

theorem set_tail {v v' : BVec} {i : Nat} {b : Bool} (e : v.set i b = some v') (j : Nat) (hj : j ≠ i) : bitAt v'.words j = bitAt v.words j := by
  have hk : i / 64 < v.words.length := by
    unfold BVec.set at e
    by_contra hc
    rw [List.getElem?_eq_none (by omega)] at e
    simp at e
  obtain ⟨ws, h1, _, h3⟩ := set_spec v.words i b (by omega)
  have : v' = ⟨v.size, ws⟩ := by
    simp only [Iter.set, mkIter] at h1
    unfold BVec.set at e
    simp only [Option.bind_eq_bind, Option.pure_def, Option.bind_eq_some_iff, rdSeg, wrSeg, if_pos (Int.natCast_nonneg _), Int.toNat_natCast] at h1 e
    obtain ⟨a, ha, m, hm, h1⟩ := h1
    obtain ⟨a', ha', m', hm', ws', h1', e⟩ := e
    rw [ha] at ha'
    cases ha'
    rw [hm] at hm'
    cases hm'
    rw [h1] at h1'
    cases h1'
    exact (Option.some.inj e).symm
  rw [this, h3 j, if_neg hj]

theorem leafLoop_tail (st : List Byte) : ∀ (n i : Nat) (v v' : BVec), leafLoop st n i v = some v' → ∀ j, i + n ≤ j → bitAt v'.words j = bitAt v.words j
  | 0, i, v, v', e, j, _ => by
    cases (Option.some.inj e); rfl
  | n + 1, i, v, v', e, j, hj => by
    simp only [leafLoop, Option.bind_eq_bind, Option.bind_eq_some_iff] at e
    obtain ⟨x, _, e⟩ := e
    split at e
    · rw [Option.bind_eq_some_iff] at e
      obtain ⟨v1, e1, e2⟩ := e
      rw [leafLoop_tail st n (i + 1) v1 v' e2 j (by omega), set_tail e1 j (by omega)]
    · exact leafLoop_tail st n (i + 1) v v' e j (by omega)

theorem dict_tail {W : Nat} {keys : List Key} {t : Dict} (e : buildDict W keys = some t) (hpos : 0 < t.samc.storage.length) (v : BVec)
    (hv : Succ.build true v = some t.leaves) (hw : v.words.length = wordSize v.size) (j : Nat)
    (hj : t.samc.storage.length ≤ j) : bitAt v.words j = false := by
  simp only [buildDict, setupLeaves, Option.bind_eq_bind, Option.bind_eq_some_iff, Option.pure_def] at e
  obtain ⟨s, _, v', e1, l, e2, e3⟩ := e
  cases Option.some.inj e3
  simp only at hv hpos hj
  obtain ⟨sb, es, ok⟩ := Succ.build_spec true v hw
  rw [hv] at es
  cases es
  have hw' : v'.words.length = wordSize v'.size := by
    obtain ⟨v2, l2, e3, b, _⟩ := leafLoop_spec s.storage (s.storage.length - 1) 1 _ (List.replicate s.storage.length false) (by omega) ⟨.size _, [], _, trivial, rfl, rfl, rfl⟩ (by simp)
    rw [e1] at e3
    cases e3
    exact b.rep.words
  obtain ⟨sb', es', ok'⟩ := Succ.build_spec true v' hw'
  rw [e2] at es'
  cases es'
  rw [← ok.bits, ok'.bits, leafLoop_tail _ _ _ _ _ e1 j (by omega)]
  exact bitAt_replicate _ _

theorem countP_le_of {P Q : Nat → Bool} (h : ∀ i, P i = true → Q i = true) (l : List Nat) : l.countP P ≤ l.countP Q :=
  List.countP_mono_left (fun i _ => h i)

/-- A half word with fewer than 16 ones is counted without loss. -/
theorem lost_zero (x : W32) (h : ones x < 16) : lost x = 0 := by
  have key : ∀ m : W32, x &&& m = m → ones m ≤ ones x := by
    intro m hm
    apply countP_le_of
    intro i hi
    rw [← hm, BitVec.getLsbD_and, Bool.and_eq_true] at hi
    exact hi.1
  have c1 : ones 0x0F0F0F0F#32 = 16 := by decide
  have c2 : ones 0xF0F0F0F0#32 = 16 := by decide
  unfold lost
  rw [if_neg, if_neg]
  · intro hc; have := key _ hc; omega
  · intro hc; have := key _ hc; omega

theorem cntB_tail {ws : List W64} {n : Nat} (h : ∀ j, n ≤ j → bitAt ws j = false) : ∀ m, Succ.cntB ws m ≤ Succ.cntB ws n := by
  intro m
  induction m with
  | zero => rw [Succ.cntB_zero]; omega
  | succ m ih =>
    by_cases hm : m + 1 ≤ n
    · exact Succ.cntB_mono ws hm
    · rw [Succ.cntB_succ, h m (by omega)]
      simpa using ih

end Verif.Samc

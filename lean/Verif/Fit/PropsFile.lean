/-
Property theorems C110 (FitVector): the contents determine the written file, if the vector was not shrunk.
-/
import Verif.Fit.Props

namespace Verif.Fit
open Verif.BV Verif.Serial
open Verif.Bits (W64)

/-! ### C110 -/

/-- The vector was not shrunk since it was last empty. -/
def keptStep (c : Bool) (n : Nat) : Op → Bool
  | .resize m => (c && decide (n ≤ m)) || decide (m = 0)
  | .resizeVal m _ => (c && decide (n ≤ m)) || decide (m = 0)
  | .assign m _ => (c && decide (n ≤ m)) || decide (m = 0)
  | _ => c

def kept (c : Bool) (n : Nat) : List Op → Bool
  | [] => c
  | o :: os => kept (keptStep c n o) (lenStep n o) os

theorem kept_run (w : Nat) : ∀ (os : List Op) (v : FVec) (c : Bool), WF v w → (c = true → Clean v w) → opsOk w v.size os →
    ∃ v', runOps v os = some v' ∧ WF v' w ∧ (kept c v.size os = true → Clean v' w)
  | [], v, c, h, hc, _ => ⟨v, rfl, h, hc⟩
  | o :: os, v, c, h, hc, ho => by
    obtain ⟨v1, c1, e1, w1, k1, s1, r1⟩ := step_spec w v h c hc o ho.1
    have hk : keptStep c v.size o = c1 := by
      cases o <;> simp only [specStep, Prod.mk.injEq] at r1
      · exact r1.2.symm
      · exact r1.2.symm
      · exact r1.2.symm
      · have := r1.2.2.2.2
        rw [elems_length] at this
        exact this.symm
      · rw [r1.2, elems_length]; rfl
      · rw [r1.2, elems_length]; rfl
      · exact r1.2.symm
    obtain ⟨v2, e2, w2, k2⟩ := kept_run w os v1 c1 w1 k1 (by rw [s1]; exact ho.2)
    refine ⟨v2, ?_, w2, ?_⟩
    · simp only [runOps, e1, Option.bind_eq_bind, Option.bind_some]; exact e2
    · intro hkk
      simp only [kept, hk, ← s1] at hkk
      exact k2 hkk

theorem fit_unique {a b : FVec} {w : Nat} (ha : WF a w) (hb : WF b w) (ca : Clean a w) (cb : Clean b w) (he : elems a w = elems b w) : a = b := by
  have hsz : a.size = b.size := by rw [← elems_length a w, he, elems_length]
  have hbit : ∀ q, bitAt a.words q = bitAt b.words q := by
    intro q
    by_cases hq : a.size * w ≤ q
    · rw [ca q hq, cb q (hsz ▸ hq)]
    · have hw := ha.pos
      have hi : q / w < a.size := (Nat.div_lt_iff_lt_mul (by omega)).2 (by omega)
      have h1 := elems_getElem? a w (q / w) hi
      have h2 := elems_getElem? b w (q / w) (by omega)
      rw [he, h2, Option.some.injEq] at h1
      have h3 := congrArg (fun x => x.testBit (q % w)) h1
      simp only [valAt_testBit, Nat.mod_lt q (show w > 0 by omega), decide_true, Bool.true_and] at h3
      rw [show q / w * w + q % w = q by rw [Nat.mul_comm]; exact Nat.div_add_mod q w] at h3
      exact h3.symm
  have hws : a.words = b.words := by
    refine List.ext_getElem (by rw [ha.len, hb.len, hsz]) ?_
    intro k h1 h2
    refine BitVec.eq_of_getLsbD_eq fun j hj => ?_
    have := hbit (64 * k + j)
    unfold bitAt at this
    rw [show (64 * k + j) / 64 = k by omega, show (64 * k + j) % 64 = j by omega] at this
    simpa [List.getD_eq_getElem?_getD, h1, h2] using this
  have hm : a.mask = b.mask := by
    refine BitVec.eq_of_getLsbD_eq fun j _ => ?_
    rw [ha.mask j, hb.mask j]
  have hwd : a.width = b.width := by rw [ha.width, hb.width]
  cases a
  cases b
  simp_all

/-- Two histories that end with the same values end with the same object, which writes the same file, if neither shrank the vector after it was last
empty. Different values give different files. -/
theorem C110_fitvector (w : Nat) (h1 : 1 ≤ w) (h63 : w ≤ 63) (i i' : Init) (hi : initOk w i) (hi' : initOk w i') (os os' : List Op)
    (ho : opsOk w (specInit i).length os) (ho' : opsOk w (specInit i').length os')
    (hk : kept true (specInit i).length os = true) (hk' : kept true (specInit i').length os' = true) :
    ∃ a0 a b0 b l l', runInit w i = some a0 ∧ runOps a0 os = some a ∧ runInit w i' = some b0 ∧ runOps b0 os' = some b ∧
      Shows a w l ∧ Shows b w l' ∧ (l = l' → a = b) ∧ (l.length * w < 2 ^ 64 → l'.length * w < 2 ^ 64 → (a.write = b.write ↔ l = l')) := by
  obtain ⟨a0, ea0, wa0, la0, ca0⟩ := init_spec w h1 h63 i hi
  obtain ⟨b0, eb0, wb0, lb0, cb0⟩ := init_spec w h1 h63 i' hi'
  have hsa : a0.size = (specInit i).length := by rw [← la0, elems_length]
  have hsb : b0.size = (specInit i').length := by rw [← lb0, elems_length]
  obtain ⟨a, ea, wa, ca⟩ := kept_run w os a0 true wa0 (fun _ => ca0) (by rw [hsa]; exact ho)
  obtain ⟨b, eb, wb, cb⟩ := kept_run w os' b0 true wb0 (fun _ => cb0) (by rw [hsb]; exact ho')
  have ca := ca (by rw [hsa]; exact hk)
  have cb := cb (by rw [hsb]; exact hk')
  have key : elems a w = elems b w → a = b := fit_unique wa wb ca cb
  refine ⟨a0, a, b0, b, _, _, ea0, ea, eb0, eb, wf_shows a w wa, wf_shows b w wb, key, ?_⟩
  intro hz hz'
  rw [elems_length] at hz hz'
  refine ⟨fun hw => ?_, fun e => by rw [key e]⟩
  have r := (C27_roundtrip w h1 h63 i hi os ho a0 a ea0 ea hz []).1
  have r' := (C27_roundtrip w h1 h63 i' hi' os' ho' b0 b eb0 eb hz' []).1
  rw [hw, r', Option.some.injEq, Prod.mk.injEq] at r
  rw [r.1]

/-- Without the condition the file shows the past. -/
theorem C110_fitvector_cut_domain : ∃ a0 a b0 b, runInit 8 .new = some a0 ∧ runOps a0 [.pushBack 1, .pushBack 2, .resize 1] = some a ∧
    runInit 8 .new = some b0 ∧ runOps b0 [.pushBack 1] = some b ∧ Shows a 8 [1] ∧ Shows b 8 [1] ∧ a.write ≠ b.write := by
  obtain ⟨a0, ea0, wa0, la0, ca0⟩ := init_spec 8 (by decide) (by decide) .new trivial
  obtain ⟨b0, eb0, wb0, lb0, cb0⟩ := init_spec 8 (by decide) (by decide) .new trivial
  obtain rfl : a0 = b0 := Option.some.inj (ea0.symm.trans eb0)
  have hs : a0.size = 0 := by rw [← elems_length a0 8, la0]; rfl
  obtain ⟨a, _, ea, wa, _⟩ := run_spec 8 [.pushBack 1, .pushBack 2, .resize 1] a0 true wa0 (fun _ => ca0) (by rw [hs]; simp [opsOk, opOk])
  obtain ⟨b, _, eb, wb, _⟩ := run_spec 8 [.pushBack 1] a0 true wa0 (fun _ => ca0) (by rw [hs]; simp [opsOk, opOk])
  have hx : ((runInit 8 .new).bind fun v => runOps v [.pushBack 1, .pushBack 2, .resize 1]).map (fun v => (elems v 8, v.write)) =
      some ([1], (writeVal 8 8 ++ writeVal 8 1 ++ writeVec 8 [0x201])) := by decide +kernel
  have hy : ((runInit 8 .new).bind fun v => runOps v [.pushBack 1]).map (fun v => (elems v 8, v.write)) =
      some ([1], (writeVal 8 8 ++ writeVal 8 1 ++ writeVec 8 [1])) := by decide +kernel
  rw [ea0, Option.bind_some, ea, Option.map_some, Option.some.injEq, Prod.mk.injEq] at hx
  rw [ea0, Option.bind_some, eb, Option.map_some, Option.some.injEq, Prod.mk.injEq] at hy
  refine ⟨a0, a, a0, b, ea0, ea, ea0, eb, hx.1 ▸ wf_shows a 8 wa, hy.1 ▸ wf_shows b 8 wb, ?_⟩
  rw [hx.2, hy.2]
  decide

example := C110_fitvector 7 (by decide) (by decide) (.vector [100, 3]) .new ⟨by decide, by decide, Or.inr ⟨100, by decide, by decide⟩⟩ trivial
  [.pushBack 127, .set 0 5] [.assign 5 9, .resize 0, .pushBack 5, .pushBack 3, .resizeVal 3 127]
  (by simp [opsOk, opOk, lenStep, specInit]) (by simp [opsOk, opOk]) (by decide) (by decide)

end Verif.Fit

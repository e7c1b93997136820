/-
Property theorem C22 (SuccinctBitVector), continued: exactly where the portable `select` inverts `rank`.
-/
import Verif.Succ.PropsSel
import Verif.Succ.PropsSpace

namespace Verif.Succ
open Verif.Bits Verif.Serial Verif.BV

/-- Portable build, in the domain of the tips: for a position `p` with a one, `select(rank(p)) = p` if and only if the counting of the low half of the
word with `p` loses nothing, or what is counted of it still includes `p`. Missing: the other positions, where `select` reads out of range. -/
theorem C22_exact_partial (v : BVec) (l : List Bool) (h : Built v l) (hsz : l.length < 2 ^ 41) :
    ∃ s, build true v = some s ∧ ∀ p w, l[p]? = some true → (l.take p).count true / 512 ≤ (l.take (l.length / 512 * 512)).count true / 512 →
      v.words[p / 64]? = some w → ∃ r, s.rank1 p = some r ∧
        (s.select Bits.sel r = some p ↔ lost (w.setWidth 32) = 0 ∨ onesBelow w (p % 64) + 1 + lost (w.setWidth 32) ≤ onesBelow w 32) := by
  obtain ⟨s, e, hsel⟩ := C21_select_exact_partial v l h hsz
  obtain ⟨s', e', hrank⟩ := C20_rank true v l h
  rw [e] at e'
  obtain rfl : s = s' := Option.some.inj e'
  refine ⟨s, e, ?_⟩
  intro p w hp hd hw
  have hpl : p < l.length := (List.getElem?_eq_some_iff.1 hp).1
  have hcp : ∀ q, l[q]? = some true → (l.take (q + 1)).count true = (l.take q).count true + 1 := by
    intro q hq
    rw [List.take_add_one, hq, List.count_append]; simp
  have hsub : ∀ a b, a ≤ b → (l.take a).count true ≤ (l.take b).count true := by
    intro a b hab
    exact (List.take_sublist_take_left hab).count_le true
  have hlt2 : (l.take p).count true < l.count true := by
    have h1 := hcp p hp
    have h2 := hsub (p + 1) l.length (by omega)
    rw [List.take_length] at h2
    omega
  obtain ⟨q, w', h1, h2, h3, h4⟩ := hsel _ hlt2 hd
  have hqp : q = p := by
    rcases Nat.lt_trichotomy p q with hlt' | heq | hgt
    · have a := hcp p hp
      have b := hsub (p + 1) q (by omega)
      omega
    · exact heq.symm
    · have a := hcp q h1
      have b := hsub (q + 1) p (by omega)
      omega
  subst hqp
  rw [hw] at h3
  cases h3
  exact ⟨_, (hrank q hpl).1, h4⟩

/-- Of a word of 64 ones: `select(rank(0)) = 0`, but `select(rank(1))` is not 1. -/
example : ∃ v s, runInit (.sizeBit 64 true) = some v ∧ build true v = some s ∧ (s.rank1 0).bind (s.select Bits.sel) = some 0 ∧
    (s.rank1 1).bind (s.select Bits.sel) ≠ some 1 ∧ v.words[0]? = some 0xFFFFFFFFFFFFFFFF#64 :=
  ⟨_, _, rfl, rfl, by decide +kernel, by decide +kernel, by decide +kernel⟩

end Verif.Succ

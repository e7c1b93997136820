/-
Property theorems C123, third part: what was in an object before `Read` does not matter, whatever the bytes are.
-/
import Verif.Serial.PropsShort

namespace Verif.Serial

theorem Agree.same {α : Type} {m m' : R α} {rd : Stream → Option (α × Stream)} (h : Agree m rd) (h' : Agree m' rd) (b : Stream) (x : α) (s : IS)
    (e : m ⟨b, true⟩ = some (x, s)) (hs : s.good = true) : m' ⟨b, true⟩ = some (x, s) := by
  obtain ⟨r, g⟩ := s
  cases hs
  exact h'.full _ _ _ (h.good _ _ _ e rfl)

/-- C123 (`BitVector`): when a read ends with a good stream, a read of the same bytes into any other object gives the same object. -/
theorem C123_bit_vector (old old' : BV.BVec) (b : Stream) (x : BV.BVec) (s : IS) (e : bvReadS old ⟨b, true⟩ = some (x, s)) (hs : s.good = true) :
    bvReadS old' ⟨b, true⟩ = some (x, s) := (agree_bv old).same (agree_bv old') b x s e hs

example : ∃ x s, bvReadS ⟨70, [1#64, 2#64]⟩ ⟨[3#8, 0, 0, 0, 0, 0, 0, 0, 1, 0, 0, 0, 0, 0, 0, 0, 5, 0, 0, 0, 0, 0, 0, 0, 9], true⟩ = some (x, s) ∧ s.good = true :=
  ⟨_, _, rfl, rfl⟩

/-- C123 (`SuccinctBitVector`). -/
theorem C123_succinct (us : Bool) (old old' : Succ.SBV) (b : Stream) (x : Succ.SBV) (s : IS) (e : succReadS us old ⟨b, true⟩ = some (x, s))
    (hs : s.good = true) : succReadS us old' ⟨b, true⟩ = some (x, s) := (agree_succ us old).same (agree_succ us old') b x s e hs

example : ∃ x s, succReadS false ⟨⟨70, [1#64, 2#64]⟩, [7, 8, 9], []⟩ ⟨[3#8, 0, 0, 0, 0, 0, 0, 0, 1, 0, 0, 0, 0, 0, 0, 0, 5, 0, 0, 0, 0, 0, 0, 0,
    1, 0, 0, 0, 0, 0, 0, 0, 6, 0, 0, 0, 0, 0, 0, 0], true⟩ = some (x, s) ∧ s.good = true ∧ x.blk = [6] := ⟨_, _, rfl, rfl, rfl⟩

/-- C123 (`MultiBitVector`). -/
theorem C123_multi_bit_vector (S : Nat) (old old' : MBit.MBV) (h2 : old.tips.length = 2 ^ S) (h : ∀ ts ∈ old.tips, ∀ t ∈ ts, t.2.length = MBit.tipSize S)
    (h2' : old'.tips.length = 2 ^ S) (h' : ∀ ts ∈ old'.tips, ∀ t ∈ ts, t.2.length = MBit.tipSize S) (b : Stream) (x : MBit.MBV) (s : IS)
    (e : mbitReadS S old ⟨b, true⟩ = some (x, s)) (hs : s.good = true) : mbitReadS S old' ⟨b, true⟩ = some (x, s) :=
  (agree_mbit S old h2 h).same (agree_mbit S old' h2' h') b x s e hs

example : ∃ x s, mbitReadS 1 (MBit.empty 1) ⟨List.replicate 30 0#8, true⟩ = some (x, s) ∧ s.good = true := ⟨_, _, rfl, rfl⟩

/-- C123 (`Samc`). -/
theorem C123_samc (W : Nat) (old old' : Samc.Samc) (h : ∀ r ∈ old.code, r.length = 256) (h' : ∀ r ∈ old'.code, r.length = 256) (b : Stream)
    (x : Samc.Samc) (s : IS) (e : samcReadS W old ⟨b, true⟩ = some (x, s)) (hs : s.good = true) : samcReadS W old' ⟨b, true⟩ = some (x, s) :=
  (agree_samc W old h).same (agree_samc W old' h') b x s e hs

example : ∃ x s, samcReadS 8 ⟨[1, 2], [], [3]⟩ ⟨[2#8, 0, 0, 0, 0, 0, 0, 0, 98, 97] ++ List.replicate 8 0#8 ++ [1, 0, 0, 0, 0, 0, 0, 0, 4], true⟩ = some (x, s) ∧
    s.good = true ∧ x.head = [4] ∧ x.storage = [98, 97] := ⟨_, _, rfl, rfl, rfl, rfl⟩

/-- C123 (`SamcDict`). -/
theorem C123_samc_dict (W : Nat) (old old' : Samc.Dict) (h : ∀ r ∈ old.samc.code, r.length = 256) (h' : ∀ r ∈ old'.samc.code, r.length = 256) (b : Stream)
    (x : Samc.Dict) (s : IS) (e : dictReadS W old ⟨b, true⟩ = some (x, s)) (hs : s.good = true) : dictReadS W old' ⟨b, true⟩ = some (x, s) :=
  (agree_dict W old h).same (agree_dict W old' h') b x s e hs

example : ∃ x s, dictReadS 8 ⟨⟨[1, 2], [], [3]⟩, Succ.default⟩ ⟨List.replicate 70 0#8, true⟩ = some (x, s) ∧ s.good = true := ⟨_, _, rfl, rfl⟩

end Verif.Serial

/-
Tables nothing was written to: `erase` does nothing to them.
-/
import Verif.CDRW.Lemmas
import Verif.CHT.Safe

namespace Verif.CDRW
open Verif.Bits Verif.Fit Verif.CHT

/-- A table nothing was ever written to. -/
structure Fresh (kb : Nat) (t : Tab) : Prop where
  keyBits : t.keyBits = kb
  bits : t.bucketBits ≠ 0
  size : t.size ≠ t.minSize
  zero : ∀ y, t.arr.get (y &&& t.bucketMask) = some 0

theorem new_fresh {kb : Nat} {t : Tab} (h : CHT.new par false kb 8 = some t) : Fresh kb t := by
  obtain ⟨h1, h2, h3, _, h5, h6, _, _, h9⟩ := new_safe (P := par) (b := 3) (by decide) h
  have hs : t.bucketBits = 3 ∧ t.size = 0 ∧ t.minSize = 1 := by
    unfold CHT.new at h
    simp only [Bool.false_eq_true, if_false, Option.bind_eq_bind, Option.pure_def] at h
    obtain ⟨_, _, h⟩ := Option.bind_eq_some_iff.1 h
    obtain ⟨va, _, h⟩ := Option.bind_eq_some_iff.1 h
    obtain ⟨ar, _, h⟩ := Option.bind_eq_some_iff.1 h
    rw [← Option.some.inj h]
    exact ⟨show ctz64 8#64 = 3 by decide +kernel, rfl, show 8 * (50 - 1) % 2 ^ 64 / 400 + 1 = 1 by decide⟩
  obtain ⟨b1, b2, b3⟩ := hs
  rw [b1] at h2 h5 h9
  refine ⟨h1, by omega, by omega, fun y => ?_⟩
  have hy : y &&& t.bucketMask < t.bucket := by
    have := Nat.and_le_right (n := y) (m := t.bucketMask)
    omega
  rw [Fit.get_spec t.arr _ h5 _ (by omega), h9]
  simp [hy]

theorem table_fresh {kb w : Nat} {t : Tab} (h : table kb w = some t) : Fresh kb t := by
  unfold table at h
  obtain ⟨t0, e, h⟩ := Option.bind_eq_some_iff.1 h
  have F := new_fresh e
  split at h
  · rw [← Option.some.inj h]
    exact F
  · unfold Tab.setValueWidth at h
    split at h
    · simp at h
    · simp only [Option.bind_eq_bind, Option.pure_def, Option.bind_eq_some_iff] at h
      obtain ⟨r, ⟨va, _, h1⟩, h2⟩ := h
      rw [← Option.some.inj h1] at h2
      rw [← Option.some.inj h2]
      exact ⟨F.keyBits, F.bits, F.size, F.zero⟩

theorem tables_fresh {kb : Nat} : ∀ (n : Nat) (ts : List Tab), tables kb n = some ts → ts.length = n ∧ ∀ w, w < n → ∃ t, ts[w]? = some t ∧ Fresh kb t
  | 0, ts, h => by
    rw [← Option.some.inj h]
    exact ⟨rfl, fun w hw => absurd hw (by omega)⟩
  | n + 1, ts, h => by
    unfold tables at h
    simp only [Option.bind_eq_bind, Option.pure_def, Option.bind_eq_some_iff] at h
    obtain ⟨l, e, t, et, h⟩ := h
    obtain ⟨hl, hf⟩ := tables_fresh n l e
    rw [← Option.some.inj h]
    refine ⟨by simp [hl], fun w hw => ?_⟩
    by_cases hc : w = n
    · subst hc
      exact ⟨t, by rw [← hl]; simp, table_fresh et⟩
    · rw [List.getElem?_append_left (by omega)]
      exact hf w (by omega)

/-- `erase` does nothing to a table nothing was written to. -/
theorem erase_fresh {kb : Nat} (hkb : kb ≤ 62) {t : Tab} (F : Fresh kb t) {k : Nat} (hk : k < 2 ^ kb) : t.erase par false k = some t := by
  obtain ⟨y, e1, e2, _⟩ := (par_good hkb).1 k hk
  unfold Tab.erase Tab.eraseD
  rw [if_neg F.size]
  simp only [Option.bind_some]
  unfold Tab.eraseIn
  rw [F.keyBits]
  first | rw [e1] | rw [e2]
  simp only [Option.bind_eq_bind, Option.bind_some, Tab.eraseQuo, if_neg F.bits, F.zero]
  rfl

/-- The tables of the bit lengths that do not occur in `q` were never written to. -/
def Clean (kb n : Nat) (a : Arr) (q : List Nat) : Prop :=
  ∃ ws ts, a = ⟨n, some (ws, ts)⟩ ∧ ∀ w, w < 64 → (∀ y ∈ q, Nat.size y ≠ w + 1) → ∃ t, ts[w]? = some t ∧ Fresh kb t

theorem Clean.mono {kb n : Nat} {a : Arr} {q q' : List Nat} (C : Clean kb n a q) (h : ∀ y ∈ q, y ∈ q') : Clean kb n a q' := by
  obtain ⟨ws, ts, e, hT⟩ := C
  exact ⟨ws, ts, e, fun w hw hq => hT w hw (fun y hy => hq y (h y hy))⟩

theorem new_clean {n : Nat} (h0 : n ≠ 0) {a : Arr} (e : new false n = some a) : Clean (sizeBits n) n a [] := by
  unfold new at e
  rw [if_neg (by decide), if_neg h0] at e
  simp only [Option.bind_eq_bind, Option.pure_def, Option.bind_eq_some_iff] at e
  obtain ⟨ws, _, ts, e2, e⟩ := e
  exact ⟨ws, ts, (Option.some.inj e).symm, fun w hw _ => (tables_fresh 64 ts e2).2 w hw⟩

/-- A write to an element that is zero, or keeps its bit length, or whose bit length is not followed by one that is in use. -/
theorem set_clean {kb n m : Nat} {a : Arr} {A : Nat → Nat} {q : List Nat} (hkb : kb ≤ 62) (hn : n ≤ 2 ^ kb) (O : Ok kb n m a A) (C : Clean kb n a q) (hm : m ≤ 2 ^ 55)
    {i v : Nat} (hi : i < n) (hv : v < 2 ^ 63) (hA : A i < 2 ^ 63) (hf : A i = 0 ∨ Nat.size (A i) = Nat.size v ∨ ∀ y ∈ q, Nat.size y ≠ Nat.size (A i) + 1) :
    ∃ a', a.set i v = some a' ∧ Ok kb n (m + 1) a' (Function.update A i v) ∧ ∀ q', (∀ y ∈ q, y ∈ q') → (v = 0 ∨ v ∈ q') → Clean kb n a' q' := by
  obtain ⟨ws, ts, ea, hT⟩ := C
  obtain ⟨a2, e2, O2, hk⟩ := set_ok_he hkb hn O hm hi hv (by
    intro ws' ts' ea'
    rw [ea] at ea'
    injection ea' with _ ea'
    injection ea' with ea'
    injection ea' with _ ea'
    subst ea'
    unfold eraseOld
    split
    · rename_i hc
      rcases hf with h | h | h
      · exact absurd (by rw [h, Nat.size_zero]) hc.1
      · exact absurd h hc.2
      · have hs : Nat.size (A i) ≤ 63 := Nat.size_le.2 hA
        obtain ⟨t, et, F⟩ := hT (Nat.size (A i)) (by omega) h
        simp only [et, Option.bind_eq_bind, Option.bind_some, erase_fresh hkb F (show i < 2 ^ kb by omega), Option.pure_def]
        obtain ⟨hl, rfl⟩ := List.getElem?_eq_some_iff.1 et
        rw [List.set_getElem_self]
    · rfl)
  obtain ⟨ws', ts', ea', hk⟩ := hk ws ts ea
  refine ⟨a2, e2, O2, fun q' hq hvq => ⟨ws', ts', ea', fun w hw hall => ?_⟩⟩
  rw [hk w (fun h => ?_)]
  · exact hT w hw (fun y hy => hall y (hq y hy))
  · rcases hvq with h' | h'
    · rw [h', Nat.size_zero] at h
      omega
    · exact hall v h' h.symm

end Verif.CDRW

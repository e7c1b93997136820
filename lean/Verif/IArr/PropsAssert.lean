/-
Property theorem C128 for the in-place initialisable array in a build with assertions.
-/
import Verif.IArr.Props

namespace Verif.IArr

/-- `_make_chain` with its assertion, InitializableArray.hpp:194-198; an abort is `none` here, as a fault is. -/
def Arr.makeChainA (w : Nat) (s : Arr) (i j : Nat) : Option Arr :=
  if i < s.b ∧ s.b ≤ j then s.makeChain w i j else none

/-- `set` with the assertion of `_make_chain`, InitializableArray.hpp:107-149. -/
def Arr.setA (w n : Nat) (s : Arr) (i v : Nat) : Option Arr := do
  let b := i / 2
  let c ← s.chainedTo n b
  if b < s.b then
    match c with
    | none => s.writeUca w n i v
    | some k => do
      let (s, j) ← s.extend w n
      if b = j then s.writeUca w n i v
      else do
        let x ← s.a[2 * b]?
        let s ← s.put (2 * j) x
        let y ← s.a[2 * b + 1]?
        let s ← s.put (2 * j + 1) y
        let s ← s.makeChainA w j k
        let s ← s.initBlock b
        s.writeUca w n i v
  else
    match c with
    | some k => s.writeWca i k v
    | none => do
      let (s, k) ← s.extend w n
      if b = k then s.writeUca w n i v
      else do
        let s ← s.initBlock b
        let s ← s.makeChainA w k b
        s.writeWca i k v

/-- Running a history as `runArr` in a build with assertions. -/
def runArrA (w n : Nat) : List (Op Nat) → Arr → Option Arr
  | [], s => some s
  | .fill v :: ops, s => runArrA w n ops (s.fill v)
  | .set i v :: ops, s => do
    let s ← s.setA w n i v
    runArrA w n ops s

theorem setA_eq {w n : Nat} (hw : 2 * n ≤ 2 ^ w) (s : Arr) (hl : s.a.length = 2 * n) (hbn : s.b ≤ n) (i v : Nat) (hi : i / 2 < n) :
    s.setA w n i v = s.set w n i v := by
  obtain ⟨p, q, h⟩ := Rep.exists n s hl
  unfold Arr.setA Arr.set
  simp only [h.chained _ hi, Option.bind_eq_bind, Option.bind_some]
  obtain ⟨x1, x2, x3, x4, x5, x6, x7, x8⟩ := ext_spec n s.b s.init p q
  by_cases hb : i / 2 < s.b
  · rw [if_pos hb, if_pos hb]
    cases hc : chF n s.b p (i / 2) with
    | none => rfl
    | some k =>
      have hk := chF_some.1 hc
      have hkc := hk.cross
      have hkn := hk.hk
      have hsb : s.b < n := by omega
      obtain ⟨s1, e1, r1, b1, i1⟩ := h.extend hw hsb
      simp only [e1, Option.bind_some]
      generalize hj : (extF n s.b s.init p q).2.2 = j at *
      generalize (extF n s.b s.init p q).1 = p1 at *
      generalize (extF n s.b s.init p q).2.1 = q1 at *
      by_cases hij : i / 2 = j
      · rw [if_pos hij, if_pos hij]
      · rw [if_neg hij, if_neg hij]
        have hjn : j < n := by omega
        have hks : k ≠ s.b := by
          rintro rfl
          exact hij (x8 _ (chF_some.2 hk.symm)).symm
        obtain ⟨s2, e2, r2, b2, i2⟩ := r1.putEv j (p1 (i / 2)) hjn
        obtain ⟨s3, e3, r3, b3, i3⟩ := r2.putOd j (q1 (i / 2)) hjn
        simp only [r1.ev _ hi, e2, r2.od _ hi, e3, Option.bind_some]
        rw [Arr.makeChainA, if_pos (by omega)]
  · rw [if_neg hb, if_neg hb]
    cases hc : chF n s.b p (i / 2) with
    | some k => rfl
    | none =>
      have hsb : s.b < n := by omega
      obtain ⟨s1, e1, r1, b1, i1⟩ := h.extend hw hsb
      simp only [e1, Option.bind_some]
      generalize hj : (extF n s.b s.init p q).2.2 = j at *
      generalize (extF n s.b s.init p q).1 = p1 at *
      generalize (extF n s.b s.init p q).2.1 = q1 at *
      by_cases hij : i / 2 = j
      · rw [if_pos hij, if_pos hij]
      · rw [if_neg hij, if_neg hij]
        have hne : i / 2 ≠ s.b := by
          intro e
          rw [e] at hc hij
          exact hij (x7 hc).symm
        obtain ⟨s2, e2, r2, b2, i2⟩ := r1.initBlock (i / 2) hi
        simp only [e2, Option.bind_some]
        rw [Arr.makeChainA, if_pos (by omega)]

theorem runArrA_eq {w n : Nat} (hw : 2 * n ≤ 2 ^ w) : ∀ (ops : List (Op Nat)) (s : Arr), InRange (2 * n) ops → s.a.length = 2 * n → s.b ≤ n →
    runArrA w n ops s = runArr w n ops s
  | [], _, _, _, _ => rfl
  | .fill v :: ops, s, hr, hl, _ => runArrA_eq hw ops (s.fill v) (fun i x hm => hr i x (List.mem_cons_of_mem _ hm)) hl (Nat.zero_le _)
  | .set i v :: ops, s, hr, hl, hb => by
    have hi : i < 2 * n := hr i v List.mem_cons_self
    obtain ⟨s1, e1, l1, b1, _, _⟩ := set_spec hw s hl hb i v (by omega)
    simp only [runArrA, runArr, setA_eq hw s hl hb i v (by omega), e1, Option.bind_eq_bind, Option.bind_some]
    exact runArrA_eq hw ops s1 (fun j x hm => hr j x (List.mem_cons_of_mem _ hm)) l1 b1

/-- C128, in-place initialisable array: in a build with assertions no history of `fill` and writes to indices in range aborts, and it has the
results of C39. -/
theorem C128_inplace (w size val : Nat) (hw : size + size % 2 ≤ 2 ^ w) (garbage : List Nat)
    (hg : garbage.length = size + size % 2) (ops : List (Op Nat)) (h : InRange size ops) :
    ∃ s, runArrA w (blocks size) ops (new garbage val) = some s ∧
      ∀ j, j < size → s.get (blocks size) j = (spec ops (List.replicate size val))[j]? := by
  obtain ⟨s, e, g⟩ := C39_histories w size val hw garbage hg ops h
  have hb : 2 * blocks size = size + size % 2 := by unfold blocks; omega
  refine ⟨s, ?_, g⟩
  rw [runArrA_eq (by omega) ops _ (fun i v hm => by have := h i v hm; omega) (by rw [hb]; exact hg) (Nat.zero_le _), e]

example := C128_inplace 8 5 1 (by decide) [2, 0, 0, 2, 4, 4] (by decide) [.set 3 7, .fill 6, .set 4 200, .set 0 2] (by
  intro i v h; simp at h; omega)

end Verif.IArr

/-
Property theorems C128 for CDRWVector in a build with assertions.
-/
import Verif.CDRW.PropsVec
import Verif.Bits.Model

namespace Verif.CDRW
open Verif.Bits

/-- `_allocate` with its two assertions, CDRWArray.hpp:122-130; `some none` is an abort. The assertion of the reads in the loop, 40, is not evaluated. -/
def Vec.allocateA (v : Vec) (newCap : Nat) : Option (Option Vec) :=
  if v.size ≤ newCap ∧ popcnt64 (BitVec.ofNat 64 newCap) = 1#64 then (v.allocate newCap).map some else some none

/-- The calls with the assertions of `_allocate`, CDRWArray.hpp:77-117. -/
def VOp.runA (v : Vec) : VOp → Option (Option Vec)
  | .push x => do
    let r ← if v.size = v.cap then v.allocateA (v.size * 2) else some (some v)
    match r with
    | none => pure none
    | some v => ({ v with size := v.size + 1 }.set (v.size + 1 - 1) x).map some
  | .pop =>
    if v.size = 0 then some (some v)
    else (if v.size * 3 < v.cap then v.allocateA (v.size * 2) else some (some v)).map (fun r => r.map (fun v => { v with size := v.size - 1 }))
  | .set i x => (v.set i x).map some
  | .resize n => (if n > v.cap then v.allocateA (max n (v.cap * 2)) else some (some v)).map (fun r => r.map (fun v => { v with size := n }))
  | .reserve n => if n ≤ v.cap then some (some v) else v.allocateA (max n (v.cap * 2))
  | .shrink => if v.size = v.cap then some (some v) else v.allocateA v.size
  | .clear => some (some v.clear)

/-- A history of calls. -/
def runsA : Vec → List VOp → Option (Option Vec)
  | v, [] => some (some v)
  | v, o :: ops => do
    let r ← o.runA v
    match r with
    | none => pure none
    | some v => runsA v ops

theorem pop_pow2 : ∀ j, j < 64 → popcnt64 (BitVec.ofNat 64 (2 ^ j)) = 1#64 := by decide +kernel

theorem allocate_fields {v v' : Vec} {c : Nat} (e : v.allocate c = some v') : v'.size = v.size ∧ v'.cap = c := by
  simp only [Vec.allocate, Option.bind_eq_bind, Option.bind_eq_some_iff, Option.pure_def, Option.some.injEq] at e
  obtain ⟨_, _, _, _, rfl⟩ := e
  exact ⟨rfl, rfl⟩

theorem set_fields {v v' : Vec} {i x : Nat} (e : v.set i x = some v') : v'.size = v.size ∧ v'.cap = v.cap := by
  simp only [Vec.set, Option.bind_eq_bind, Option.bind_eq_some_iff, Option.pure_def, Option.some.injEq] at e
  obtain ⟨_, _, rfl⟩ := e
  exact ⟨rfl, rfl⟩

/-- `push_back` and `set`. -/
def VOp.grows : VOp → Bool
  | .push _ => true
  | .set _ _ => true
  | _ => false

theorem runsA_grows : ∀ (ops : List VOp) (v v' : Vec) (j : Nat), v.cap = 2 ^ j → v.size ≤ v.cap → v.size + ops.length ≤ 2 ^ 54 → (∀ o ∈ ops, o.grows = true) →
    runs v ops = some v' → runsA v ops = some (some v')
  | [], v, v', j, _, _, _, _, e => by cases e; rfl
  | o :: ops, v, v', j, hc, hs, hl, ho, e => by
    have hg := ho o (List.mem_cons_self ..)
    have ho' := fun o' h => ho o' (List.mem_cons_of_mem o h)
    simp only [List.length_cons] at hl
    simp only [runs, Option.bind_eq_some_iff] at e
    obtain ⟨v1, e1, e2⟩ := e
    cases o with
    | set i x =>
      simp only [VOp.run] at e1
      obtain ⟨f1, f2⟩ := set_fields e1
      simp only [runsA, VOp.runA, e1, Option.map_some, Option.bind_eq_bind, Option.bind_some]
      exact runsA_grows ops v1 v' j (by rw [f2, hc]) (by omega) (by omega) ho' e2
    | push x =>
      simp only [VOp.run, Vec.push] at e1
      by_cases hf : v.size = v.cap
      · rw [if_pos hf, Option.bind_eq_some_iff] at e1
        obtain ⟨v2, e3, e4⟩ := e1
        obtain ⟨a1, a2⟩ := allocate_fields e3
        obtain ⟨f1, f2⟩ := set_fields e4
        simp only at f1 f2
        have hj : j < 55 := by
          by_contra hj
          have := Nat.pow_le_pow_right (n := 2) (by decide) (show 55 ≤ j by omega)
          omega
        have h1 : 1 ≤ 2 ^ j := Nat.one_le_two_pow
        have hpow : v.size * 2 = 2 ^ (j + 1) := by rw [hf, hc, Nat.pow_succ]
        have hA : v.allocateA (v.size * 2) = some (some v2) := by
          unfold Vec.allocateA
          rw [if_pos ⟨by omega, by rw [hpow]; exact pop_pow2 _ (by omega)⟩, e3]
          rfl
        simp only [runsA, VOp.runA]
        rw [if_pos hf, hA]
        simp only [Option.bind_eq_bind, Option.bind_some, e4, Option.map_some]
        exact runsA_grows ops v1 v' (j + 1) (by rw [f2, a2, hpow]) (by omega) (by omega) ho' e2
      · rw [if_neg hf, Option.bind_some] at e1
        obtain ⟨f1, f2⟩ := set_fields e1
        simp only at f1 f2
        simp only [runsA, VOp.runA]
        rw [if_neg hf]
        simp only [Option.bind_eq_bind, Option.bind_some, e1, Option.map_some]
        exact runsA_grows ops v1 v' j (by rw [f2, hc]) (by omega) (by omega) ho' e2
    | pop => cases hg
    | resize n => cases hg
    | reserve n => cases hg
    | shrink => cases hg
    | clear => cases hg

/-- C128, CDRWVector: after construction with a power of two as size, histories of `push_back` and `set` pass the assertions of `_allocate` and give the
same vector. Missing: the other calls (see `C128_vec_pop_refuted`, `C128_vec_resize_refuted`) and the histories that C68 excludes. -/
theorem C128_vec_partial (k : Nat) (hk : k ≤ 53) (ops : List VOp) (hlen : ops.length ≤ 2 ^ 53) (hg : ∀ o ∈ ops, o.grows = true)
    (hok : allOk ⟨List.replicate (2 ^ k) 0, [], []⟩ ops) :
    ∃ v v', newVec false (2 ^ k) = some v ∧ runs v ops = some v' ∧ runsA v ops = some (some v') := by
  have h1 : 1 ≤ 2 ^ k := Nat.one_le_two_pow
  have h2 : 2 ^ k ≤ 2 ^ 53 := Nat.pow_le_pow_right (by decide) hk
  obtain ⟨v, v', e, e', _⟩ := C68_vector_partial (2 ^ k) ops h1 h2 hlen hok
  refine ⟨v, v', e, e', ?_⟩
  simp only [newVec, Option.bind_eq_bind, Option.bind_eq_some_iff, Option.pure_def, Option.some.injEq] at e
  obtain ⟨a, _, rfl⟩ := e
  exact runsA_grows ops _ v' k rfl (Nat.le_refl _) (by simp only; omega) hg e'

example := C128_vec_partial 1 (by decide) [.push 5, .push 6, .set 0 2000, .push 1, .push 2] (by decide) (by decide) (by simp [allOk, VOp.ok, VOp.eff])

/-- Removing elements as long as nothing is given back. -/
theorem pops_keep : ∀ (n : Nat) (v : Vec), n < v.size → v.cap ≤ (v.size - n + 1) * 3 →
    runs v (List.replicate n .pop) = some { v with size := v.size - n } ∧ runsA v (List.replicate n .pop) = some (some { v with size := v.size - n })
  | 0, v, _, _ => ⟨rfl, rfl⟩
  | n + 1, v, h1, h2 => by
    have h3 : ¬ v.size = 0 := by omega
    have h4 : ¬ v.size * 3 < v.cap := by omega
    obtain ⟨i1, i2⟩ := pops_keep n { v with size := v.size - 1 } (by simp only; omega) (by simp only; omega)
    simp only [show v.size - 1 - n = v.size - (n + 1) by omega] at i1 i2
    refine ⟨?_, ?_⟩
    · simp only [List.replicate_succ, runs, VOp.run, Vec.pop]
      rw [if_neg h3, if_neg h4]
      exact i1
    · simp only [List.replicate_succ, runsA, VOp.runA]
      rw [if_neg h3, if_neg h4]
      exact i2

theorem allOk_pops : ∀ (n : Nat) (s : Hist), allOk s (List.replicate n .pop)
  | 0, _ => trivial
  | n + 1, _ => ⟨trivial, allOk_pops n _⟩

theorem pop_third : ∀ k, k < 54 → 4 ≤ k → popcnt64 (BitVec.ofNat 64 ((2 ^ k - 1) / 3 * 2)) ≠ 1#64 := by decide +kernel

theorem runs_append : ∀ (a b : List VOp) (v : Vec), runs v (a ++ b) = (runs v a).bind (runs · b)
  | [], _, _ => rfl
  | o :: a, b, v => by
    simp only [List.cons_append, runs, Option.bind_assoc]
    congr 1
    funext w
    exact runs_append a b w

/-- C128, CDRWVector: a vector with `2^k` elements, `k` from 4 on, from which elements are removed one by one aborts when less than a third is left; without
assertions the call succeeds. -/
theorem C128_vec_pop_refuted (k : Nat) (hk4 : 4 ≤ k) (hk : k ≤ 53) :
    ∃ v v' v'', newVec false (2 ^ k) = some v ∧ runsA v (List.replicate (2 ^ k - (2 ^ k - 1) / 3) .pop) = some (some v') ∧ v'.size = (2 ^ k - 1) / 3 ∧
      v'.pop = some v'' ∧ VOp.pop.runA v' = some none := by
  have h1 : 2 ^ 4 ≤ 2 ^ k := Nat.pow_le_pow_right (by decide) hk4
  have h2 : 2 ^ k ≤ 2 ^ 53 := Nat.pow_le_pow_right (by decide) hk
  have h3 := pop_third k (by omega) hk4
  generalize hN : 2 ^ k = N at h1 h2 h3 ⊢
  obtain ⟨v, v'', e, e', _⟩ := C68_vector_partial N (List.replicate (N - (N - 1) / 3) .pop ++ [.pop]) (by omega) h2
    (by simp only [List.length_append, List.length_replicate, List.length_singleton]; omega)
    (by rw [← List.replicate_succ']; exact allOk_pops _ _)
  have hv : v.size = N ∧ v.cap = N := by
    simp only [newVec, Option.bind_eq_bind, Option.bind_eq_some_iff, Option.pure_def, Option.some.injEq] at e
    obtain ⟨a, _, rfl⟩ := e
    exact ⟨rfl, rfl⟩
  obtain ⟨i1, i2⟩ := pops_keep (N - (N - 1) / 3) v (by omega) (by omega)
  rw [runs_append, i1, Option.bind_some] at e'
  simp only [runs, VOp.run, Option.bind_eq_some_iff, Option.some.injEq] at e'
  obtain ⟨w, e1, _⟩ := e'
  refine ⟨v, _, w, e, i2, by simp only; omega, e1, ?_⟩
  have hs : v.size - (N - (N - 1) / 3) = (N - 1) / 3 := by omega
  simp only [VOp.runA, hs]
  rw [if_neg (by omega), if_pos (by omega)]
  unfold Vec.allocateA
  rw [if_neg (fun h => h3 h.2)]
  rfl

example := C128_vec_pop_refuted 4 (by decide) (by decide)

/-- C128, CDRWVector: `resize` to 9 and `reserve` of 9 abort for a vector of 4 elements; without assertions they succeed. -/
theorem C128_vec_resize_refuted : ∃ v w w', newVec false 4 = some v ∧ v.resize 9 = some w ∧ v.reserve 9 = some w' ∧ (VOp.resize 9).runA v = some none ∧
    (VOp.reserve 9).runA v = some none := by
  have h : (newVec false 4).map (fun v => ((v.resize 9).isSome, (v.reserve 9).isSome, decide ((VOp.resize 9).runA v = some none ∧ (VOp.reserve 9).runA v = some none))) =
      some (true, true, true) := by decide +kernel
  obtain ⟨v, e, h⟩ := Option.map_eq_some_iff.1 h
  simp only [Prod.mk.injEq] at h
  obtain ⟨w, hw⟩ := Option.isSome_iff_exists.1 h.1
  obtain ⟨w', hw'⟩ := Option.isSome_iff_exists.1 h.2.1
  exact ⟨v, w, w', e, hw, hw', of_decide_eq_true h.2.2⟩

/-- C128, CDRWVector: `push_back` on an empty vector, out of range without assertions (C68), aborts with them. -/
theorem C128_vec_empty (x : Nat) : ∃ v, newVec false 0 = some v ∧ (VOp.push x).runA v = some none := by
  refine ⟨⟨0, 0, ⟨0, none⟩⟩, rfl, ?_⟩
  have : (⟨0, 0, ⟨0, none⟩⟩ : Vec).allocateA 0 = some none := by decide +kernel
  simp only [VOp.runA, Nat.zero_mul, if_true, this, Option.bind_eq_bind, Option.bind_some, Option.pure_def]

example := C128_vec_empty 5

end Verif.CDRW

/-
The searches of Samc and SamcDict once more, this time counting the accesses to array cells (codes, heads, labels, words and directory entries of the
leaves), and the proofs that they return what the functions of the model return.
-/
import Verif.Wave.Reads
import Verif.Samc.Ids

namespace Verif.Samc
open Verif.BV Verif.Serial Verif.IArr Verif.Reads

/-- `in_range`, Samc.hpp:308-311 and 430-433. -/
def Samc.inRangeC (s : Samc) (index d : Nat) : M Bool := do
  let a ← acc s.head[d]?
  if a ≤ index then do
    let b ← acc s.head[d + 1]?
    pure (decide (index < b))
  else pure false

/-- `in_range(target, depth+1) and check(target) == c`, Samc.hpp:325-326 and 332-333. -/
def Samc.followsC (s : Samc) (target d : Nat) (c : Byte) : M Bool := do
  let r ← s.inRangeC target (d + 1)
  if r then do
    let x ← acc s.storage[target]?
    pure (decide (x = c))
  else pure false

/-- The loop of `accept`, Samc.hpp:319-334, and `lookup`, 441-457. A code is one access. -/
def Samc.findC (s : Samc) : (key : Key) → (node d : Nat) → M (Option Nat)
  | [], node, d => do
    let x ← acc (s.codeOf d 0)
    let r ← s.followsC ((node + x) % 2 ^ 64) d 0
    pure (if r then some ((node + x) % 2 ^ 64) else none)
  | c :: key, node, d => do
    let x ← acc (s.codeOf d c)
    let r ← s.followsC ((node + x) % 2 ^ 64) d c
    if r then Samc.findC s key ((node + x) % 2 ^ 64) (d + 1) else pure none

/-- `accept`, Samc.hpp:317-334. -/
def Samc.acceptC (s : Samc) (key : Key) : M Bool := do
  let r ← s.findC key 0 0
  pure r.isSome

/-- `lookup`, Samc.hpp:439-459. -/
def Dict.lookupC (t : Dict) (key : Key) : M Nat := do
  let r ← t.samc.findC key 0 0
  match r with
  | none => pure searchError
  | some i => rank1C t.leaves i

theorem inRange_costs (s : Samc) (x d : Nat) : Costs (s.inRangeC x d) (s.inRange x d) 2 := by
  refine Costs.bind (K := 1) (K' := 1) (Costs.acc _) fun a => ?_
  split
  · exact Costs.bind (K := 1) (K' := 0) (Costs.acc _) fun _ => Costs.pure _
  · exact (Costs.pure _).mono (by omega)

theorem follows_costs (s : Samc) (x d : Nat) (c : Byte) : Costs (s.followsC x d c) (s.follows x d c) 3 := by
  refine Costs.bind (K := 2) (K' := 1) (inRange_costs s x (d + 1)) fun r => ?_
  cases r
  · exact (Costs.pure _).mono (by omega)
  · exact Costs.bind (K := 1) (K' := 0) (Costs.acc _) fun _ => Costs.pure _

/-- At most four accesses for each byte and the end, and at most four for each depth of the table of codes. -/
theorem find_costs (s : Samc) : ∀ (key : Key) (node d : Nat), Costs (s.findC key node d) (s.find key node d) (4 * min (key.length + 1) (s.code.length - d))
  | key, node, d => by
    by_cases hd : d < s.code.length
    · have hm : ∀ n, 4 * min (n + 1 + 1) (s.code.length - d) = 4 + 4 * min (n + 1) (s.code.length - (d + 1)) := by intro n; omega
      cases key with
      | nil =>
        refine (Costs.bind (K := 1) (K' := 3) (Costs.acc _) fun x => ?_).mono (by simp only [List.length_nil]; omega)
        exact Costs.bind (K := 3) (K' := 0) (follows_costs s _ d 0) fun _ => Costs.pure _
      | cons c key =>
        rw [List.length_cons, hm]
        refine (Costs.bind (K := 1) (K' := 3 + 4 * min (key.length + 1) (s.code.length - (d + 1))) (Costs.acc _) fun x => ?_).mono (by omega)
        refine Costs.bind (K := 3) (follows_costs s _ d c) fun r => ?_
        cases r
        · exact (Costs.pure _).mono (by omega)
        · exact find_costs s key _ (d + 1)
    · have hn : ∀ c, s.codeOf d c = none := by
        intro c
        unfold Samc.codeOf
        rw [List.getElem?_eq_none (by omega)]
        rfl
      intro cc
      cases key <;> simp only [Samc.findC, Samc.find, hn] <;> exact ⟨rfl, fun r h => by cases h⟩

theorem accept_costs (s : Samc) (key : Key) : Costs (s.acceptC key) (s.accept key) (4 * min (key.length + 1) s.code.length) :=
  Costs.bind (K' := 0) (find_costs s key 0 0) fun _ => Costs.pure _

theorem lookup_costs (t : Dict) (key : Key) : Costs (t.lookupC key) (t.lookup key) (4 * min (key.length + 1) t.samc.code.length + 3) := by
  refine Costs.bind (K' := 3) (find_costs t.samc key 0 0) fun r => ?_
  cases r
  · exact (Costs.pure _).mono (by omega)
  · exact rank1_costs _ _

/-- A search that leaves the keys after `p` bytes ends there. -/
theorem find_early {W : Nat} {keys : List Key} {L : Nat} {s : Samc} (h : Ok W keys L s) (hW : W ≤ 64) (hL : ∀ k ∈ keys, k.length ≤ L) :
    ∀ (rest w : Key) (p : Nat), (0xff : Byte) ∉ rest → (0 : Byte) ∉ rest → Path keys w → w.length ≤ L → ¬ Path keys (w ++ rest.take (p + 1)) →
      Costs (s.findC rest (pos s.code w) w.length) (s.find rest (pos s.code w) w.length) (4 * (p + 1))
  | [], w, p, _, _, hw, _, hp => absurd (by simpa using hw) hp
  | c :: rest, w, p, hff, h0, hw, hwL, hp => by
    obtain ⟨z, e1, e2, e3, r, e4, e5, e6⟩ := step_spec h hW hL (x := pos s.code w) (d := w.length) hwL (h.inside w hw).2 c
    refine (Costs.bind_some (K := 1) (K' := 4 * p + 3) (Costs.acc _) fun x hx => ?_).mono (by omega)
    rw [e1, Option.some.injEq] at hx
    subst hx
    refine (Costs.bind_some (K := 3) (K' := 4 * p) (follows_costs s _ w.length c) fun r' hr => ?_).mono (by omega)
    rw [e2, e4, Option.some.injEq] at hr
    subst hr
    cases r with
    | false => exact (Costs.pure _).mono (by omega)
    | true =>
      rcases e6 rfl with hc | ⟨w', hl', hw', hpos⟩
      · exact absurd (by rw [hc]; exact List.mem_cons_self ..) hff
      · obtain rfl : w = w' := h.inj w w' hw hw'.init (by omega) hpos
        cases p with
        | zero => exact absurd (by simpa using hw') hp
        | succ p =>
          have hl2 : (w ++ [c]).length ≤ L := by
            obtain ⟨k, hk, hpre⟩ := hw'
            have hle := hL k hk
            have hlen := hpre.length_le
            simp only [ext, List.length_append, List.length_singleton] at hlen ⊢
            by_contra hcon
            have he := hpre.eq_of_length (by simp only [ext, List.length_append, List.length_singleton]; omega)
            have := List.singleton_inj.1 (List.append_inj' he rfl).2
            exact h0 (by rw [this]; exact List.mem_cons_self ..)
          have ih := find_early h hW hL rest (w ++ [c]) p (fun hm => hff (List.mem_cons_of_mem _ hm)) (fun hm => h0 (List.mem_cons_of_mem _ hm)) hw' hl2
            (by rw [List.append_assoc, List.singleton_append]; exact hp)
          have hpn := pos_step (code := s.code) (w := w) (by rw [h.clen]; omega) c
          rw [← e3] at hpn
          rw [hpn, List.length_append, List.length_singleton] at ih
          simp only [if_true, e2]
          exact ih

theorem Path.nil_iff {keys : List Key} (w : Key) (h0 : (0 : Byte) ∉ w) : Path keys w ↔ ∃ k ∈ keys, w <+: k := by
  constructor
  · rintro ⟨k, hk, hw⟩
    refine ⟨k, hk, ?_⟩
    have hlen := hw.length_le
    simp only [ext, List.length_append, List.length_singleton] at hlen
    by_cases hc : w.length ≤ k.length
    · exact List.prefix_of_prefix_length_le hw (List.prefix_append _ _) hc
    · have he := hw.eq_of_length (by simp only [ext, List.length_append, List.length_singleton]; omega)
      exact absurd (by rw [he]; simp [ext]) h0
  · rintro ⟨k, hk, hw⟩
    exact ⟨k, hk, hw.trans (List.prefix_append _ _)⟩

/-- A search that fails costs `lookup` nothing else. -/
theorem lookup_none {t : Dict} {q : Key} {K : Nat} (hc : Costs (t.samc.findC q 0 0) (t.samc.find q 0 0) K) (hr : t.samc.find q 0 0 = some none) :
    ∃ k, t.lookupC q 0 = some (searchError, k) ∧ k ≤ K := by
  obtain ⟨h1, h2⟩ := hc 0
  rw [hr] at h1
  obtain ⟨⟨a, k⟩, e, ha⟩ := Option.map_eq_some_iff.1 h1
  obtain rfl : a = none := ha
  refine ⟨k, ?_, by have := h2 _ e; simp only at this; omega⟩
  change (t.samc.findC q 0 0 0).bind _ = _
  rw [e]
  rfl

end Verif.Samc

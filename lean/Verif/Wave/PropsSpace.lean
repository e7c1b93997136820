/-
Property theorems C81 (space of WaveletTree) and C82 (node_diff).
-/
import Verif.Wave.Props
import Verif.Succ.PropsSpace
import Verif.Bits.Props

namespace Verif.Wave
open Verif.Bits Verif.Serial

/-! ### C81 -/

/-- The nodes of a complete tree of `k` levels, level by level. -/
theorem sum_levels (F : Nat → Nat) : ∀ k, ((List.range (2 ^ k - 1)).map F).sum =
    ((List.range k).map fun e => ((List.range (2 ^ e)).map fun p => F (2 ^ e + p - 1)).sum).sum := by
  intro k
  induction k with
  | zero => rfl
  | succ k ih =>
    have hp := Nat.two_pow_pos k
    rw [List.range_succ, List.map_append, List.sum_append, ← ih, show 2 ^ (k + 1) - 1 = (2 ^ k - 1) + 2 ^ k by rw [Nat.pow_succ]; omega, List.range_add,
      List.map_append, List.sum_append, List.map_map]
    simp only [List.map_cons, List.map_nil, List.sum_cons, List.sum_nil, Nat.add_zero]
    congr 2
    refine List.map_congr_left fun p _ => ?_
    simp only [Function.comp]
    congr 1
    omega

/-- Every element of a list is in exactly one class. -/
theorem sum_classes (f : Nat → Nat) (K : Nat) : ∀ vec : List Nat, (∀ v ∈ vec, f v < K) →
    ((List.range K).map fun p => (vec.filter fun v => f v == p).length).sum = vec.length := by
  intro vec
  induction vec with
  | nil =>
    intro _
    simp
  | cons v vec ih =>
    intro h
    have ih := ih (fun w hw => h w (by simp [hw]))
    have hv := h v (by simp)
    rw [List.length_cons, ← ih]
    have key : ∀ K', ((List.range K').map fun p => ((v :: vec).filter fun v => f v == p).length).sum =
        ((List.range K').map fun p => (vec.filter fun v => f v == p).length).sum + (if f v < K' then 1 else 0) := by
      intro K'
      induction K' with
      | zero => simp
      | succ K' ihk =>
        rw [List.range_succ, List.map_append, List.sum_append, List.map_append, List.sum_append, ihk]
        simp only [List.map_cons, List.map_nil, List.sum_cons, List.sum_nil, List.filter_cons]
        by_cases e : f v = K'
        · simp [e]; omega
        · have : (f v == K') = false := by simpa using e
          rw [this]
          simp only [Bool.false_eq_true, if_false]
          by_cases hlt : f v < K'
          · rw [if_pos hlt, if_pos (show f v < K' + 1 by omega)]; omega
          · rw [if_neg hlt, if_neg (show ¬ f v < K' + 1 by omega)]; omega
    rw [key, if_pos hv]

theorem sum_le {α : Type} (f g : α → Nat) : ∀ l : List α, (∀ x ∈ l, f x ≤ g x) → (l.map f).sum ≤ (l.map g).sum := by
  intro l
  induction l with
  | nil => intro _; simp
  | cons a l ih =>
    intro h
    have := ih (fun x hx => h x (by simp [hx]))
    have := h a (by simp)
    simp only [List.map_cons, List.sum_cons]
    omega

theorem make_height {vec : List Nat} {t : WT} (hv : ∀ v ∈ vec, v < 2 ^ 30) (e : make vec = some t) (h : Nat) (h1 : 1 ≤ h) (hh : ∀ v ∈ vec, v < 2 ^ h) :
    t.height ≤ h := by
  have hlt : vec.foldl max 0 < 2 ^ 30 := foldl_max_lt (2 ^ 30) vec 0 (by decide) hv
  have hlt' : vec.foldl max 0 < 2 ^ h := foldl_max_lt (2 ^ h) vec 0 (Nat.pow_pos (by decide)) hh
  obtain ⟨k, ek, _, _, h3⟩ := Calc.C13_sizeFitsInBits (vec.foldl max 0) (Nat.lt_of_lt_of_le hlt (by decide))
  unfold make at e
  split at e
  · cases e
  · simp only [ek, Option.bind_eq_bind, Option.bind_some] at e
    split at e
    · simp only [Option.bind_eq_some_iff, Option.pure_def, Option.some.injEq] at e
      obtain ⟨bs, _, ns, _, rfl⟩ := e
      exact h3 h h1 hlt'
    · cases e

/-- C81: a tree over `n` values below `2 ^ h` takes at least `h n` and at most `5/4 h n + 384 (2 ^ h - 1) + 192` bits, with `h` the least number
of bits for the largest value. -/
theorem C81_space (vec : List Nat) (hne : vec ≠ []) (hv : ∀ v ∈ vec, v < 2 ^ 30) (hl : vec.length < 2 ^ 41) :
    ∃ t, make vec = some t ∧ (∀ v ∈ vec, v < 2 ^ t.height) ∧ (∀ h, 1 ≤ h → (∀ v ∈ vec, v < 2 ^ h) → t.height ≤ h) ∧
      t.height * vec.length ≤ 8 * t.sizeInBytes ∧
      4 * (8 * t.sizeInBytes) ≤ 5 * (t.height * vec.length) + 4 * (384 * (2 ^ t.height - 1) + 192) := by
  obtain ⟨t, e, ok, hs, hlf⟩ := make_spec vec hne hv
  refine ⟨t, e, ok.lt, make_height hv e, ?_⟩
  -- one node
  have hnode : ∀ d p, d < t.height → p < 2 ^ d → ∃ s, t.nodes[2 ^ d + p - 1]? = some s ∧
      (below vec t.height d p).length ≤ 8 * s.sizeInBytes false ∧
      4 * (8 * s.sizeInBytes false) ≤ 5 * (below vec t.height d p).length + 4 * 384 := by
    intro d p hd hp
    obtain ⟨b, s, hs, hb, hbl⟩ := ok.node d p hd hp
    have hlen : (nodeBits vec t.height d p).length = (below vec t.height d p).length := by rw [nodeBits, List.length_map]
    have hnl : (nodeBits vec t.height d p).length < 2 ^ 41 := by
      rw [hlen]
      exact Nat.lt_of_le_of_lt (List.length_filter_le _ _) hl
    refine ⟨s, hs, ?_⟩
    rw [← hlen]
    by_cases h0 : nodeBits vec t.height d p = []
    · have hz : b.size = 0 := by rw [hbl.rep.size, h0]; rfl
      have hw := hbl.rep.words
      rw [hz] at hw
      unfold Succ.build at hb
      rw [if_pos hz] at hb
      obtain rfl := Option.some.inj hb
      rw [h0]
      simp [Succ.SBV.sizeInBytes, BV.BVec.sizeInBytes, sizeVec, hw, BV.wordSize]
    · obtain ⟨s', e', h1, h2, _⟩ := Succ.C76_space false b _ hbl h0 hnl
      rw [hb] at e'
      obtain rfl := Option.some.inj e'
      have h2 := h2 rfl
      simp only [Bool.false_eq_true, if_false] at h1
      omega
  -- all nodes
  obtain ⟨F, hF⟩ : ∃ F : Nat → Nat, F = fun i => match t.nodes[i]? with | some s => s.sizeInBytes false | none => 0 := ⟨_, rfl⟩
  have hsum : (t.nodes.map (Succ.SBV.sizeInBytes false)).sum = ((List.range (2 ^ t.height - 1)).map F).sum := by
    congr 1
    refine List.ext_getElem (by simp [ok.len]) fun i h1 h2 => ?_
    have hi : i < t.nodes.length := by simpa using h1
    simp only [List.getElem_map, List.getElem_range, hF, List.getElem?_eq_getElem hi]
  have hlev : ∀ d, d < t.height → vec.length ≤ 8 * ((List.range (2 ^ d)).map fun p => F (2 ^ d + p - 1)).sum ∧
      4 * (8 * ((List.range (2 ^ d)).map fun p => F (2 ^ d + p - 1)).sum) ≤ 5 * vec.length + 4 * 384 * 2 ^ d := by
    intro d hd
    have hcl : ((List.range (2 ^ d)).map fun p => (below vec t.height d p).length).sum = vec.length :=
      sum_classes (fun v => pre t.height d v) (2 ^ d) vec (fun v hv => by
        rw [pre, Nat.div_lt_iff_lt_mul (Nat.two_pow_pos _), ← Nat.pow_add, show d + (t.height - d) = t.height by omega]
        exact ok.lt v hv)
    have hFp : ∀ p ∈ List.range (2 ^ d), (below vec t.height d p).length ≤ 8 * F (2 ^ d + p - 1) ∧
        32 * F (2 ^ d + p - 1) ≤ 5 * (below vec t.height d p).length + 1536 := by
      intro p hp
      obtain ⟨s, h1, h2, h3⟩ := hnode d p hd (List.mem_range.1 hp)
      rw [hF]
      simp only [h1]
      omega
    have s1 := sum_le _ _ (List.range (2 ^ d)) fun p hp => (hFp p hp).1
    have s2 := sum_le _ _ (List.range (2 ^ d)) fun p hp => (hFp p hp).2
    have mul : ∀ (c : Nat) (f : Nat → Nat) (l : List Nat), (l.map fun p => c * f p).sum = c * (l.map f).sum := by
      intro c f l
      induction l with
      | nil => simp
      | cons a l ih => simp only [List.map_cons, List.sum_cons, ih, Nat.mul_add]
    have add : ∀ (c : Nat) (f : Nat → Nat) (l : List Nat), (l.map fun p => f p + c).sum = (l.map f).sum + c * l.length := by
      intro c f l
      induction l with
      | nil => simp
      | cons a l ih => simp only [List.map_cons, List.sum_cons, ih, List.length_cons, Nat.mul_succ]; omega
    rw [mul, hcl] at s1
    rw [mul, add 1536 (fun p => 5 * (below vec t.height d p).length), mul, hcl, List.length_range] at s2
    omega
  have hall : ∀ k, k ≤ t.height → k * vec.length ≤ 8 * ((List.range k).map fun e => ((List.range (2 ^ e)).map fun p => F (2 ^ e + p - 1)).sum).sum ∧
      4 * (8 * ((List.range k).map fun e => ((List.range (2 ^ e)).map fun p => F (2 ^ e + p - 1)).sum).sum) ≤
        5 * (k * vec.length) + 4 * 384 * (2 ^ k - 1) := by
    intro k
    induction k with
    | zero => intro _; simp
    | succ k ih =>
      intro hk
      obtain ⟨i1, i2⟩ := ih (by omega)
      obtain ⟨l1, l2⟩ := hlev k (by omega)
      have hp := Nat.two_pow_pos k
      rw [List.range_succ, List.map_append, List.sum_append, Nat.succ_mul, Nat.pow_succ]
      simp only [List.map_cons, List.map_nil, List.sum_cons, List.sum_nil, Nat.add_zero]
      omega
  have := hall t.height (Nat.le_refl _)
  unfold WT.sizeInBytes
  rw [hsum, sum_levels]
  omega

/-- Five values below 8: 360 bytes, the bounds are 15 bits and 2898 bits. -/
example : (make [3, 0, 5, 7, 7]).map (fun t => (t.height, t.sizeInBytes)) = some (3, 360) := by decide +kernel

/-! ### C82 -/

theorem widthMask_toNat (w : Nat) (hw : w < 64) : ∃ m, widthMask w = some m ∧ m.toNat = 2 ^ w - 1 := by
  refine ⟨_, if_pos hw, ?_⟩
  have hp := Nat.two_pow_pos w
  have hlt : 2 ^ w < 2 ^ 64 := Nat.pow_lt_pow_right (by decide) hw
  rw [BitVec.toNat_sub, BitVec.toNat_shiftLeft]
  simp only [BitVec.toNat_ofNat, Nat.shiftLeft_eq]
  rw [show (1 % 2 ^ 64) * 2 ^ w % 2 ^ 64 = 2 ^ w by rw [Nat.mod_eq_of_lt (a := 1) (by decide), Nat.one_mul, Nat.mod_eq_of_lt hlt]]
  omega

/-- C82: `node_diff(node, diff)` is `2 ^ d - 2 ^ (d - diff)`, where `d` is the number of levels from the root to the node: the number of nodes on
the level of the node and the `diff - 1` levels above it. -/
theorem C82_nodeDiff (node diff : Nat) (h1 : 1 ≤ node) (h2 : node < 2 ^ 63) (hd : diff ≤ node.log2 + 1) :
    ∃ k, nodeDiff node diff = some k ∧ k = 2 ^ (node.log2 + 1) - 2 ^ (node.log2 + 1 - diff) ∧
      ∀ L : List Nat, L.Nodup → (∀ x, x ∈ L ↔ 1 ≤ x ∧ x.log2 ≤ node.log2 ∧ node.log2 < x.log2 + diff) → L.length = k := by
  obtain ⟨d, e, g1, g2, g3⟩ := Calc.C13_sizeFitsInBits node h2
  have hlog : d = node.log2 + 1 := by
    have a := g3 (node.log2 + 1) (by omega) Nat.lt_log2_self
    have b : node.log2 < d := (Nat.log2_lt (by omega)).2 g2
    omega
  have hl63 : node.log2 < 63 := (Nat.log2_lt (by omega)).2 h2
  subst hlog
  obtain ⟨m1, e1, t1⟩ := widthMask_toNat (node.log2 + 1) (by omega)
  obtain ⟨m2, e2, t2⟩ := widthMask_toNat (node.log2 + 1 - diff) (by omega)
  have hle : 2 ^ (node.log2 + 1 - diff) ≤ 2 ^ (node.log2 + 1) := Nat.pow_le_pow_right (by decide) (by omega)
  have hp := Nat.two_pow_pos (node.log2 + 1 - diff)
  have hlt : 2 ^ (node.log2 + 1) < 2 ^ 64 := Nat.pow_lt_pow_right (by decide) (by omega)
  refine ⟨2 ^ (node.log2 + 1) - 2 ^ (node.log2 + 1 - diff), ?_, rfl, ?_⟩
  · unfold nodeDiff
    rw [e]
    simp only [Option.bind_eq_bind, Option.bind_some]
    rw [e1, show (node.log2 + 1 + 2 ^ 64 - diff) % 2 ^ 64 = node.log2 + 1 - diff by omega]
    simp only [Option.bind_some]
    rw [e2]
    simp only [Option.bind_some, Option.pure_def, BitVec.toNat_sub, t1, t2, Option.some.injEq]
    omega
  · intro L hn hL
    have hperm : L.Perm (List.range' (2 ^ (node.log2 + 1 - diff)) (2 ^ (node.log2 + 1) - 2 ^ (node.log2 + 1 - diff))) := by
      refine (List.perm_ext_iff_of_nodup hn List.nodup_range').2 fun x => ?_
      rw [hL, List.mem_range'_1]
      constructor
      · rintro ⟨a, b, c⟩
        have u1 := @Nat.lt_log2_self x
        have u2 := Nat.log2_self_le (n := x) (by omega)
        have u3 : 2 ^ (x.log2 + 1) ≤ 2 ^ (node.log2 + 1) := Nat.pow_le_pow_right (by decide) (by omega)
        have u4 : 2 ^ (node.log2 + 1 - diff) ≤ 2 ^ x.log2 := Nat.pow_le_pow_right (by decide) (by omega)
        omega
      · rintro ⟨a, b⟩
        have hx : x ≠ 0 := by omega
        have u1 : x.log2 < node.log2 + 1 := (Nat.log2_lt hx).2 (by omega)
        have u2 : node.log2 + 1 - diff ≤ x.log2 := (Nat.le_log2 hx).2 a
        omega
    rw [hperm.length_eq, List.length_range']

example := C82_nodeDiff 5 2 (by decide) (by decide) (by decide)

/-- C82: more levels than there are above the node: undefined behaviour, a shift by more than 63. -/
theorem C82_nodeDiff_ub (node diff : Nat) (h1 : 1 ≤ node) (h2 : node < 2 ^ 63) (hd : node.log2 + 1 < diff) (hd2 : diff ≤ 2 ^ 63) :
    nodeDiff node diff = none := by
  obtain ⟨d, e, g1, g2, g3⟩ := Calc.C13_sizeFitsInBits node h2
  have hlog : d = node.log2 + 1 := by
    have a := g3 (node.log2 + 1) (by omega) Nat.lt_log2_self
    have b : node.log2 < d := (Nat.log2_lt (by omega)).2 g2
    omega
  have hl63 : node.log2 < 63 := (Nat.log2_lt (by omega)).2 h2
  subst hlog
  obtain ⟨m1, e1, _⟩ := widthMask_toNat (node.log2 + 1) (by omega)
  unfold nodeDiff
  rw [e]
  simp only [Option.bind_eq_bind, Option.bind_some]
  have hov : widthMask ((node.log2 + 1 + 2 ^ 64 - diff) % 2 ^ 64) = none := C09_widthMask_overflow _ (by omega)
  simp only [e1, hov, Option.bind_some, Option.bind_none]

example : nodeDiff 5 2 = some 6 ∧ (Nat.log2 5 = 2) ∧ ∀ x, x ∈ [2, 3, 4, 5, 6, 7] → 1 ≤ x ∧ x.log2 ≤ 2 ∧ 2 < x.log2 + 2 := by decide +kernel

end Verif.Wave

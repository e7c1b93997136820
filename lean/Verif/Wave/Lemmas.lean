/-
Helper facts for WaveletTree.
-/
import Verif.Wave.Model
import Verif.Dac.Lemmas
import Verif.Succ.Props

namespace Verif.Wave
open Verif.Bits Verif.Serial

/-- The `d` high bits of an `h` bit value. -/
def pre (h d v : Nat) : Nat := v / 2 ^ (h - d)

theorem bitOf_eq (h d v : Nat) : bitOf h d v = decide (v / 2 ^ (h - 1 - d) % 2 = 1) := by
  unfold bitOf
  rw [Nat.shiftRight_eq_div_pow, Nat.and_one_is_mod]
  rw [Bool.eq_iff_iff, beq_iff_eq, decide_eq_true_iff]

theorem pre_succ (h d v : Nat) (hd : d < h) : pre h (d + 1) v = 2 * pre h d v + (bitOf h d v).toNat := by
  unfold pre
  rw [bitOf_eq, show h - (d + 1) = h - 1 - d by omega, show h - d = (h - 1 - d) + 1 by omega, Nat.pow_succ, ← Nat.div_div_eq_div_mul]
  generalize v / 2 ^ (h - 1 - d) = q
  by_cases hq : q % 2 = 1
  · rw [decide_eq_true hq]; simp only [Bool.toNat_true]; omega
  · rw [decide_eq_false hq]; simp only [Bool.toNat_false]; omega

theorem pre_zero (h v : Nat) (hv : v < 2 ^ h) : pre h 0 v = 0 := Nat.div_eq_of_lt hv

theorem pre_full (h v : Nat) : pre h h v = v := by unfold pre; rw [Nat.sub_self]; simp

theorem pre_lt (h d v : Nat) (hd : d ≤ h) (hv : v < 2 ^ h) : pre h d v < 2 ^ d := by
  unfold pre
  rw [Nat.div_lt_iff_lt_mul (Nat.pow_pos (by decide)), ← Nat.pow_add, show d + (h - d) = h by omega]
  exact hv

theorem pre_eq_succ (h d v w : Nat) (hd : d < h) :
    (pre h (d + 1) v == pre h (d + 1) w) = ((pre h d v == pre h d w) && (bitOf h d v == bitOf h d w)) := by
  rw [pre_succ h d v hd, pre_succ h d w hd]
  cases bitOf h d v <;> cases bitOf h d w <;> simp <;> omega

/-- Number of the node reached by value `v` at depth `d`. -/
def nid (h d v : Nat) : Nat := 2 ^ d + pre h d v

theorem nid_succ (h d v : Nat) (hd : d < h) : (nid h d v <<< 1) ||| (bitOf h d v).toNat = nid h (d + 1) v := by
  unfold nid
  rw [pre_succ h d v hd, Nat.shiftLeft_eq, Nat.pow_succ 2 d]
  generalize pre h d v = p
  generalize 2 ^ d = q
  cases bitOf h d v
  · simp only [Bool.toNat_false, Nat.or_zero, Nat.pow_one]; omega
  · simp only [Bool.toNat_true, Nat.pow_one]
    have h1 : ((q + p) * 2) ||| 1 = (q + p) * 2 + 1 := by
      have := Nat.two_pow_add_eq_or_of_lt (i := 1) (b := 1) (by decide) (q + p)
      rw [Nat.pow_one, Nat.mul_comm] at this
      exact this.symm
    rw [h1]; omega

theorem nid_one (h v : Nat) (hv : v < 2 ^ h) : nid h 0 v = 1 := by
  unfold nid; rw [pre_zero h v hv]; rfl

/-- Elements below a node. -/
def below (vec : List Nat) (h d p : Nat) : List Nat := vec.filter (fun w => pre h d w == p)

/-- The bits stored in a node. -/
def nodeBits (vec : List Nat) (h d p : Nat) : List Bool := (below vec h d p).map (bitOf h d)

theorem node_inj (a b d e : Nat) (ha : a < 2 ^ d) (hb : b < 2 ^ e) (h : 2 ^ d + a = 2 ^ e + b) : d = e ∧ a = b := by
  have key : ∀ a b d e, a < 2 ^ d → 2 ^ d + a = 2 ^ e + b → ¬ d < e := by
    intro a b d e ha h hlt
    have : 2 ^ (d + 1) ≤ 2 ^ e := Nat.pow_le_pow_right (by decide) hlt
    rw [Nat.pow_succ] at this
    omega
  have h1 := key a b d e ha h
  have h2 := key b a e d hb h.symm
  have : d = e := by omega
  subst this
  exact ⟨rfl, by omega⟩

/-- Construction state: nodes of depth below `d` hold the values `ys`, the others `xs`. -/
def Inv (h d : Nat) (xs ys : List Nat) (bs : List BV.BVec) : Prop :=
  bs.length = 2 ^ h - 1 ∧ ∀ e p, e < h → p < 2 ^ e → ∃ b, bs[2 ^ e + p - 1]? = some b ∧
    BV.Built b (nodeBits (if e < d then ys else xs) h e p)

theorem insLoop_spec (h v : Nat) (hv : v < 2 ^ h) (xs : List Nat) : ∀ (k d : Nat) (bs : List BV.BVec), d + k = h →
    Inv h d xs (xs ++ [v]) bs → ∃ bs', insLoop h v k d (nid h d v) bs = some bs' ∧ Inv h h xs (xs ++ [v]) bs' := by
  intro k
  induction k with
  | zero =>
    intro d bs hd hi
    have : d = h := by omega
    subst this
    exact ⟨bs, rfl, hi⟩
  | succ k ih =>
    intro d bs hd hi
    have hdh : d < h := by omega
    have hp : pre h d v < 2 ^ d := pre_lt h d v (by omega) hv
    obtain ⟨b, hb, hbb⟩ := hi.2 d (pre h d v) hdh hp
    rw [if_neg (by omega)] at hbb
    obtain ⟨b', eb, hbb'⟩ := Dac.Built_push hbb (bitOf h d v)
    have hl : nid h d v - 1 < bs.length := (List.getElem?_eq_some_iff.1 hb).1
    unfold insLoop
    have hb2 : bs[nid h d v - 1]? = some b := hb
    simp only [hb2, eb, Verif.wr_eq _ _ _ hl, Option.bind_eq_bind, Option.bind_some, nid_succ h d v hdh]
    apply ih (d + 1) _ (by omega)
    refine ⟨by rw [List.length_set]; exact hi.1, ?_⟩
    intro e p he hpe
    by_cases hsame : 2 ^ e + p = nid h d v
    · obtain ⟨rfl, rfl⟩ := node_inj p (pre h d v) e d hpe hp hsame
      refine ⟨b', by rw [hsame, List.getElem?_set, if_pos rfl, if_pos hl], ?_⟩
      rw [if_pos (by omega)]
      have : nodeBits (xs ++ [v]) h e (pre h e v) = nodeBits xs h e (pre h e v) ++ [bitOf h e v] := by
        unfold nodeBits below
        rw [List.filter_append, List.map_append]
        congr 1
        rw [List.filter_cons_of_pos (by simp)]
        rfl
      rw [this]
      exact hbb'
    · obtain ⟨q, hq, hqb⟩ := hi.2 e p he hpe
      have hpos : 0 < 2 ^ e := Nat.pow_pos (by decide)
      have hpos2 : 0 < 2 ^ d := Nat.pow_pos (by decide)
      refine ⟨q, by rw [List.getElem?_set, if_neg (by unfold nid at *; omega)]; exact hq, ?_⟩
      by_cases h1 : e < d
      · rw [if_pos (by omega)]; rwa [if_pos h1] at hqb
      · rw [if_neg h1] at hqb
        by_cases h2 : e = d
        · subst h2
          rw [if_pos (by omega)]
          have : nodeBits (xs ++ [v]) h e p = nodeBits xs h e p := by
            unfold nodeBits below
            rw [List.filter_append, List.map_append, List.filter_cons_of_neg]
            · simp
            · intro hc
              apply hsame
              rw [beq_iff_eq] at hc
              unfold nid; rw [hc]
          rw [this]; exact hqb
        · rw [if_neg (by omega)]; exact hqb

theorem Inv_full {h : Nat} {xs ys : List Nat} {bs : List BV.BVec} (hi : Inv h h xs ys bs) : Inv h 0 ys ys bs := by
  refine ⟨hi.1, ?_⟩
  intro e p he hp
  obtain ⟨b, hb, hbb⟩ := hi.2 e p he hp
  rw [if_pos he] at hbb
  exact ⟨b, hb, by rw [ite_self]; exact hbb⟩

theorem Inv_start {h : Nat} {xs ys : List Nat} {bs : List BV.BVec} (hi : Inv h 0 xs xs bs) : Inv h 0 xs ys bs := by
  refine ⟨hi.1, ?_⟩
  intro e p he hp
  obtain ⟨b, hb, hbb⟩ := hi.2 e p he hp
  rw [ite_self] at hbb
  exact ⟨b, hb, by rw [if_neg (by omega)]; exact hbb⟩

theorem insAll_spec (h : Nat) : ∀ (vs xs : List Nat) (bs : List BV.BVec), (∀ v ∈ vs, v < 2 ^ h) → Inv h 0 xs xs bs →
    ∃ bs', insAll h vs bs = some bs' ∧ Inv h 0 (xs ++ vs) (xs ++ vs) bs' := by
  intro vs
  induction vs with
  | nil => intro xs bs _ hi; exact ⟨bs, rfl, by rw [List.append_nil]; exact hi⟩
  | cons v vs ih =>
    intro xs bs hv hi
    obtain ⟨b1, e1, h1⟩ := insLoop_spec h v (hv v (by simp)) xs h 0 bs (by omega) (Inv_start hi)
    rw [nid_one h v (hv v (by simp))] at e1
    obtain ⟨b2, e2, h2⟩ := ih (xs ++ [v]) b1 (fun w hw => hv w (by simp [hw])) (Inv_full h1)
    rw [List.append_assoc] at h2
    exact ⟨b2, by simp [insAll, e1, e2], h2⟩

theorem buildNodes_spec : ∀ (ps : List BV.BVec) (F : Nat → List Bool), (∀ (i : Nat) p, ps[i]? = some p → BV.Built p (F i)) →
    ∃ ss, buildNodes ps = some ss ∧ ss.length = ps.length ∧
      ∀ (i : Nat) p, ps[i]? = some p → ∃ s, ss[i]? = some s ∧ Succ.build false p = some s := by
  intro ps
  induction ps with
  | nil => intro F _; exact ⟨[], rfl, rfl, by simp⟩
  | cons p ps ih =>
    intro F h
    obtain ⟨s, e, _⟩ := Succ.C20_rank false p (F 0) (h 0 p rfl)
    obtain ⟨ss, e2, hl, h2⟩ := ih (fun i => F (i + 1)) (fun i q hq => h (i + 1) q (by rw [List.getElem?_cons_succ]; exact hq))
    refine ⟨s :: ss, by simp [buildNodes, e, e2], by simp [hl], ?_⟩
    intro i q hq
    cases i with
    | zero =>
      simp only [List.getElem?_cons_zero, Option.some.injEq] at hq
      subst hq
      exact ⟨s, rfl, e⟩
    | succ i =>
      rw [List.getElem?_cons_succ] at hq
      rw [List.getElem?_cons_succ]
      exact h2 i q hq

/-- A finished tree of height `h` holding `vec`. -/
structure Ok (vec : List Nat) (t : WT) : Prop where
  lt : ∀ v ∈ vec, v < 2 ^ t.height
  pos : 0 < t.height
  small : t.height < 31
  len : t.nodes.length = 2 ^ t.height - 1
  node : ∀ e p, e < t.height → p < 2 ^ e → ∃ b s, t.nodes[2 ^ e + p - 1]? = some s ∧
    Succ.build false b = some s ∧ BV.Built b (nodeBits vec t.height e p)

theorem node_of_index (h n : Nat) (hn : n < 2 ^ h - 1) : ∃ e p, e < h ∧ p < 2 ^ e ∧ n = 2 ^ e + p - 1 := by
  refine ⟨Nat.log2 (n + 1), n + 1 - 2 ^ Nat.log2 (n + 1), ?_, ?_, ?_⟩
  · exact (Nat.log2_lt (by omega)).2 (by omega)
  · have h1 := @Nat.lt_log2_self (n + 1)
    rw [Nat.pow_succ] at h1
    have h2 := Nat.log2_self_le (n := n + 1) (by omega)
    omega
  · have h2 := Nat.log2_self_le (n := n + 1) (by omega)
    omega

theorem foldl_max_ge : ∀ (l : List Nat) (a : Nat), a ≤ l.foldl max a ∧ ∀ x ∈ l, x ≤ l.foldl max a := by
  intro l
  induction l with
  | nil => intro a; exact ⟨Nat.le_refl _, by simp⟩
  | cons b l ih =>
    intro a
    obtain ⟨h1, h2⟩ := ih (max a b)
    rw [List.foldl_cons]
    refine ⟨by omega, ?_⟩
    intro x hx
    rcases List.mem_cons.1 hx with rfl | hx
    · omega
    · exact h2 x hx

theorem foldl_max_lt (B : Nat) : ∀ (l : List Nat) (a : Nat), a < B → (∀ x ∈ l, x < B) → l.foldl max a < B := by
  intro l
  induction l with
  | nil => intro a h _; exact h
  | cons b l ih =>
    intro a h hl
    rw [List.foldl_cons]
    apply ih
    · have := hl b (by simp); omega
    · intro x hx; exact hl x (by simp [hx])

theorem make_spec (vec : List Nat) (hne : vec ≠ []) (hv : ∀ v ∈ vec, v < 2 ^ 30) :
    ∃ t, make vec = some t ∧ Ok vec t ∧ t.size = 0 ∧ t.leafs < 2 ^ 31 := by
  have hmax := foldl_max_ge vec 0
  have hlt : vec.foldl max 0 < 2 ^ 30 := foldl_max_lt (2 ^ 30) vec 0 (by decide) hv
  obtain ⟨h, eh, h1, h2, h3⟩ := Calc.C13_sizeFitsInBits (vec.foldl max 0) (Nat.lt_of_lt_of_le hlt (by decide))
  have hle : h ≤ 30 := h3 30 (by decide) hlt
  have hvh : ∀ v ∈ vec, v < 2 ^ h := fun v hv => Nat.lt_of_le_of_lt (hmax.2 v hv) h2
  have hone : 1 <<< h = 2 ^ h := by rw [Nat.shiftLeft_eq, Nat.one_mul]
  have hinv : Inv h 0 [] [] (List.replicate ((1 <<< h) - 1) BV.empty) := by
    refine ⟨by rw [List.length_replicate, hone], ?_⟩
    intro e p he hp
    have hpp : 2 ^ e * 2 ≤ 2 ^ h := by
      rw [← Nat.pow_succ]; exact Nat.pow_le_pow_right (by decide) he
    refine ⟨BV.empty, by rw [List.getElem?_replicate, if_pos (by rw [hone]; omega)], ?_⟩
    rw [ite_self]
    exact Dac.Built_empty
  obtain ⟨bs, eb, hi⟩ := insAll_spec h vec [] _ hvh hinv
  rw [List.nil_append] at hi
  obtain ⟨ss, es, hsl, hss⟩ := buildNodes_spec bs
    (fun n => nodeBits vec h (Nat.log2 (n + 1)) (n + 1 - 2 ^ Nat.log2 (n + 1))) (by
      intro n b hb
      have hn : n < bs.length := (List.getElem?_eq_some_iff.1 hb).1
      rw [hi.1] at hn
      have hl1 := Nat.log2_self_le (n := n + 1) (by omega)
      have hl2 := @Nat.lt_log2_self (n + 1)
      rw [Nat.pow_succ] at hl2
      obtain ⟨q, hq, hqb⟩ := hi.2 (Nat.log2 (n + 1)) (n + 1 - 2 ^ Nat.log2 (n + 1)) ((Nat.log2_lt (by omega)).2 (by omega)) (by omega)
      rw [show 2 ^ Nat.log2 (n + 1) + (n + 1 - 2 ^ Nat.log2 (n + 1)) - 1 = n by omega, hb] at hq
      obtain rfl := Option.some.inj hq
      rw [ite_self] at hqb
      exact hqb)
  refine ⟨⟨h, vec.foldl max 0 + 1, 0, ss⟩, ?_, ⟨hvh, h1, by simp only; omega, by simp only; rw [hsl, hi.1], ?_⟩, rfl,
    by simp only; omega⟩
  · unfold make
    rw [if_neg hne]
    simp only [eh, Option.bind_eq_bind, Option.bind_some]
    rw [if_pos (by omega)]
    simp only [eb, es, Option.bind_some, Option.pure_def]
  · intro e p he hp
    obtain ⟨b, hb, hbb⟩ := hi.2 e p he hp
    rw [ite_self] at hbb
    obtain ⟨s, hs, hsb⟩ := hss _ b hb
    exact ⟨b, s, hs, hsb, hbb⟩

/-! ### Walking down -/

/-- Position in the node after `d` steps. -/
def posn (vec : List Nat) (h d c i : Nat) : Nat := (vec.take i).countP (fun w => pre h d w == pre h d c)

theorem filter_take {α : Type} (p : α → Bool) : ∀ (l : List α) (i : Nat), (l.filter p).take ((l.take i).countP p) = (l.take i).filter p := by
  intro l
  induction l with
  | nil => intro i; simp
  | cons a l ih =>
    intro i
    cases i with
    | zero => simp
    | succ i =>
      rw [List.take_succ_cons]
      by_cases hp : p a = true
      · rw [List.filter_cons_of_pos hp, List.countP_cons_of_pos hp, List.take_succ_cons, ih, List.filter_cons_of_pos hp]
      · rw [List.filter_cons_of_neg hp, List.countP_cons_of_neg hp, ih, List.filter_cons_of_neg hp]

theorem nodeBits_take (vec : List Nat) (h d c i : Nat) :
    (nodeBits vec h d (pre h d c)).take (posn vec h d c i) = nodeBits (vec.take i) h d (pre h d c) := by
  unfold nodeBits below posn
  rw [← List.map_take, filter_take]

theorem count_bit (vec : List Nat) (h d c : Nat) (hd : d < h) :
    (nodeBits vec h d (pre h d c)).count (bitOf h d c) = vec.countP (fun w => pre h (d + 1) w == pre h (d + 1) c) := by
  unfold nodeBits below
  rw [List.count_eq_countP, List.countP_map, List.countP_filter]
  apply List.countP_congr
  intro w _
  rw [pre_eq_succ h d w c hd]
  simp only [Function.comp, Bool.and_eq_true, beq_iff_eq]
  exact And.comm

theorem posn_le (vec : List Nat) (h d c i : Nat) : posn vec h d c i ≤ (nodeBits vec h d (pre h d c)).length := by
  have := congrArg List.length (nodeBits_take vec h d c i)
  unfold posn nodeBits below at *
  rw [List.length_map, ← List.countP_eq_length_filter]
  exact (List.take_sublist i vec).countP_le

/-- The position is inside of the node if the element itself follows the path. -/
theorem posn_lt (vec : List Nat) (h d c i v : Nat) (hi : vec[i]? = some v) (hv : pre h d v = pre h d c) :
    (below vec h d (pre h d c))[posn vec h d c i]? = some v := by
  unfold below posn
  exact Dac.filter_index (fun w => pre h d w == pre h d c) vec i v hi (by simp [hv])

/-- Rank in a node: exact outcome. -/
theorem rank_step {vec : List Nat} {t : WT} (ok : Ok vec t) (d c i : Nat) (hd : d < t.height) (hc : c < 2 ^ t.height) :
    ∃ s, t.nodes[nid t.height d c - 1]? = some s ∧
      (∀ j, j < (nodeBits vec t.height d (pre t.height d c)).length →
        s.get j = (nodeBits vec t.height d (pre t.height d c))[j]?) ∧
      (posn vec t.height d c i < (nodeBits vec t.height d (pre t.height d c)).length ∨
        (below vec t.height d (pre t.height d c)).length % 64 ≠ 0 ∨ below vec t.height d (pre t.height d c) = [] →
        rankBit s (bitOf t.height d c) (posn vec t.height d c i) = some (posn vec t.height (d + 1) c i)) ∧
      (¬ (posn vec t.height d c i < (nodeBits vec t.height d (pre t.height d c)).length ∨
        (below vec t.height d (pre t.height d c)).length % 64 ≠ 0 ∨ below vec t.height d (pre t.height d c) = []) →
        rankBit s (bitOf t.height d c) (posn vec t.height d c i) = none) := by
  obtain ⟨b, s, hs, hb, hbl⟩ := ok.node d (pre t.height d c) hd (pre_lt _ _ _ (by omega) hc)
  have hle := posn_le vec t.height d c i
  have htk := nodeBits_take vec t.height d c i
  have hcnt := count_bit (vec.take i) t.height d c hd
  generalize hN : nodeBits vec t.height d (pre t.height d c) = N at *
  have hNl : N.length = (below vec t.height d (pre t.height d c)).length := by rw [← hN, nodeBits, List.length_map]
  have hNe : N = [] ↔ below vec t.height d (pre t.height d c) = [] := by rw [← hN, nodeBits, List.map_eq_nil_iff]
  rw [← hNl, ← hNe]
  obtain ⟨s', e', hr⟩ := Succ.C20_rank false b N hbl
  rw [hb] at e'
  obtain rfl := Option.some.inj e'
  refine ⟨s, hs, fun j hj => (hr j hj).2.2, ?_, ?_⟩
  · intro hcase
    have key : ∃ r1, s.rank1 (posn vec t.height d c i) = some r1 ∧ r1 = (N.take (posn vec t.height d c i)).count true ∧
        s.rank0 (posn vec t.height d c i) = some ((N.take (posn vec t.height d c i)).count false) := by
      by_cases hlt : posn vec t.height d c i < N.length
      · obtain ⟨a, b, _⟩ := hr _ hlt
        exact ⟨_, a, rfl, b⟩
      · have heq : posn vec t.height d c i = N.length := by omega
        have hm : N.length % 64 ≠ 0 ∨ N = [] := by
          rcases hcase with h | h
          · omega
          · exact h
        obtain ⟨s', e', hr'⟩ := Succ.C20_rank_end false b N hbl hm
        rw [hb] at e'
        obtain rfl := Option.some.inj e'
        rw [heq]
        refine ⟨_, hr', by rw [List.take_length], ?_⟩
        unfold Succ.SBV.rank0
        simp only [hr', Option.bind_eq_bind, Option.bind_some, Option.pure_def, List.take_length]
        have : N.count true + N.count false = N.length := by
          clear * -
          induction N with
          | nil => rfl
          | cons a l ih => cases a <;> simp <;> omega
        congr 1
        omega
    obtain ⟨r1, k1, k2, k3⟩ := key
    unfold rankBit
    have hfin : List.count (bitOf t.height d c) (List.take (posn vec t.height d c i) N) = posn vec t.height (d + 1) c i := by
      rw [htk, hcnt]; rfl
    cases hbit : bitOf t.height d c
    · rw [if_pos rfl, k3, ← hfin, hbit]
    · rw [if_neg (by decide), k1, k2, ← hfin, hbit]
  · intro hcase
    have heq : posn vec t.height d c i = N.length := by omega
    obtain ⟨s', e', hr'⟩ := Succ.C20_rank_end_oob false b N hbl (by omega) (by
      intro h0; exact hcase (Or.inr (Or.inr h0)))
    rw [hb] at e'
    obtain rfl := Option.some.inj e'
    rw [heq]
    unfold rankBit Succ.SBV.rank0
    rw [hr']
    split <;> rfl

theorem get_step {vec : List Nat} {t : WT} (ok : Ok vec t) (d i v : Nat) (hd : d < t.height) (hi : vec[i]? = some v) :
    ∃ s, t.nodes[nid t.height d v - 1]? = some s ∧ s.get (posn vec t.height d v i) = some (bitOf t.height d v) ∧
      rankBit s (bitOf t.height d v) (posn vec t.height d v i) = some (posn vec t.height (d + 1) v i) := by
  have hv : v < 2 ^ t.height := ok.lt v (List.mem_of_getElem? hi)
  obtain ⟨s, hs, hg, hr, _⟩ := rank_step ok d v i hd hv
  have hpos := posn_lt vec t.height d v i v hi rfl
  have hlt : posn vec t.height d v i < (nodeBits vec t.height d (pre t.height d v)).length := by
    rw [nodeBits, List.length_map]
    exact (List.getElem?_eq_some_iff.1 hpos).1
  refine ⟨s, hs, ?_, hr (Or.inl hlt)⟩
  rw [hg _ hlt, nodeBits, List.getElem?_map, hpos]
  rfl

theorem posn_zero {vec : List Nat} {t : WT} (ok : Ok vec t) (c i : Nat) (hc : c < 2 ^ t.height) (hi : i ≤ vec.length) :
    posn vec t.height 0 c i = i := by
  unfold posn
  have : ∀ w ∈ vec.take i, (pre t.height 0 w == pre t.height 0 c) = true := by
    intro w hw
    rw [pre_zero _ _ (ok.lt w (List.mem_of_mem_take hw)), pre_zero _ _ hc]
    rfl
  rw [List.countP_eq_length.2 this, List.length_take]
  omega

theorem posn_full (vec : List Nat) (h c i : Nat) : posn vec h h c i = (vec.take i).count c := by
  unfold posn
  rw [List.count_eq_countP]
  apply List.countP_congr
  intro w _
  rw [pre_full, pre_full]

theorem rankLoop_spec {vec : List Nat} {t : WT} (ok : Ok vec t) (i v : Nat) (hi : vec[i]? = some v) :
    ∀ k d, d + k = t.height → rankLoop t k (nid t.height d v) (posn vec t.height d v i) = some ((vec.take i).count v) := by
  intro k
  induction k with
  | zero =>
    intro d hd
    have : d = t.height := by omega
    rw [this, posn_full]
    rfl
  | succ k ih =>
    intro d hd
    obtain ⟨s, hs, hg, hr⟩ := get_step ok d i v (by omega) hi
    unfold rankLoop
    simp only [hs, hg, hr, Option.bind_eq_bind, Option.bind_some, nid_succ _ _ _ (show d < t.height by omega)]
    exact ih (d + 1) (by omega)

theorem val_step (h d v : Nat) (hd : d < h) :
    (v / 2 ^ (h - d) * 2 ^ (h - d)) ||| ((bitOf h d v).toNat <<< (h - 1 - d)) = v / 2 ^ (h - (d + 1)) * 2 ^ (h - (d + 1)) := by
  rw [Nat.shiftLeft_eq, show h - (d + 1) = h - 1 - d by omega, show h - d = (h - 1 - d) + 1 by omega, bitOf_eq]
  generalize h - 1 - d = e
  apply Nat.eq_of_testBit_eq
  intro j
  rw [Nat.testBit_or, Nat.testBit_mul_two_pow, Nat.testBit_mul_two_pow, Nat.testBit_mul_two_pow, Nat.testBit_div_two_pow,
    Nat.testBit_div_two_pow]
  rcases Nat.lt_trichotomy j e with h1 | h1 | h1
  · have a : ¬ e + 1 ≤ j := by omega
    have b : ¬ e ≤ j := by omega
    simp [a, b]
  · subst h1
    have a : ¬ j + 1 ≤ j := by omega
    simp only [a, decide_false, Bool.false_and, Bool.false_or, Nat.le_refl, decide_true, Bool.true_and, Nat.sub_self, Nat.zero_add]
    have hb : v.testBit j = decide (v / 2 ^ j % 2 = 1) := Nat.testBit_eq_decide_div_mod_eq
    rw [hb]
    cases decide (v / 2 ^ j % 2 = 1) <;> rfl
  · have a : e + 1 ≤ j := by omega
    have b : e ≤ j := by omega
    have c : j - (e + 1) + (e + 1) = j := by omega
    have c2 : j - e + e = j := by omega
    have f : (decide (v / 2 ^ e % 2 = 1)).toNat.testBit (j - e) = false := by
      apply Nat.testBit_lt_two_pow
      apply Nat.lt_of_lt_of_le (Bool.toNat_lt _)
      exact Nat.pow_le_pow_right (n := 2) (by decide) (show 1 ≤ j - e by omega)
    rw [c, c2, f]
    simp [a, b]

theorem accRankLoop_spec {vec : List Nat} {t : WT} (ok : Ok vec t) (i v : Nat) (hi : vec[i]? = some v) :
    ∀ k d, d + k = t.height → accRankLoop t k d (nid t.height d v) (posn vec t.height d v i)
      (v / 2 ^ (t.height - d) * 2 ^ (t.height - d)) = some (v % 256, (vec.take i).count v) := by
  intro k
  induction k with
  | zero =>
    intro d hd
    have : d = t.height := by omega
    rw [this, posn_full, Nat.sub_self]
    unfold accRankLoop
    simp
  | succ k ih =>
    intro d hd
    obtain ⟨s, hs, hg, hr⟩ := get_step ok d i v (by omega) hi
    unfold accRankLoop
    simp only [hs, hg, hr, Option.bind_eq_bind, Option.bind_some, nid_succ _ _ _ (show d < t.height by omega),
      val_step t.height d v (by omega)]
    exact ih (d + 1) (by omega)

theorem or_mod_256 (a b : Nat) : (a % 256 ||| b) % 256 = (a ||| b) % 256 := by
  apply Nat.eq_of_testBit_eq
  intro j
  have h256 : (256 : Nat) = 2 ^ 8 := rfl
  rw [h256, Nat.testBit_mod_two_pow, Nat.testBit_mod_two_pow, Nat.testBit_or, Nat.testBit_or, Nat.testBit_mod_two_pow]
  by_cases h : j < 8 <;> simp [h]

theorem accLoop_spec {vec : List Nat} {t : WT} (ok : Ok vec t) (i v : Nat) (hi : vec[i]? = some v) :
    ∀ k d, d + k + 1 = t.height → accLoop t k d (nid t.height d v) (posn vec t.height d v i)
      (v / 2 ^ (t.height - d) * 2 ^ (t.height - d) % 256) =
        some (v / 2 * 2 % 256, nid t.height (t.height - 1) v, posn vec t.height (t.height - 1) v i) := by
  intro k
  induction k with
  | zero =>
    intro d hd
    have : d = t.height - 1 := by omega
    unfold accLoop
    rw [this, show t.height - (t.height - 1) = 1 by omega, Nat.pow_one]
  | succ k ih =>
    intro d hd
    obtain ⟨s, hs, hg, hr⟩ := get_step ok d i v (by omega) hi
    unfold accLoop
    simp only [hs, hg, hr, Option.bind_eq_bind, Option.bind_some, nid_succ _ _ _ (show d < t.height by omega), or_mod_256,
      val_step t.height d v (by omega)]
    exact ih (d + 1) (by omega)

theorem rankCLoop_spec {vec : List Nat} {t : WT} (ok : Ok vec t) (c i : Nat) (hc : c < 2 ^ t.height)
    (hdom : ∀ d, d < t.height → posn vec t.height d c i < (nodeBits vec t.height d (pre t.height d c)).length ∨
        (below vec t.height d (pre t.height d c)).length % 64 ≠ 0 ∨ below vec t.height d (pre t.height d c) = []) :
    ∀ k d, d + k = t.height → rankCLoop t c k d (nid t.height d c) (posn vec t.height d c i) = some ((vec.take i).count c) := by
  intro k
  induction k with
  | zero =>
    intro d hd
    have : d = t.height := by omega
    rw [this, posn_full]
    rfl
  | succ k ih =>
    intro d hd
    obtain ⟨s, hs, _, hr, _⟩ := rank_step ok d c i (by omega) hc
    unfold rankCLoop
    simp only [hs, hr (hdom d (by omega)), Option.bind_eq_bind, Option.bind_some, nid_succ _ _ _ (show d < t.height by omega)]
    exact ih (d + 1) (by omega)

theorem rankCLoop_none {vec : List Nat} {t : WT} (ok : Ok vec t) (c i : Nat) (hc : c < 2 ^ t.height) :
    ∀ k d, d + k = t.height → (∃ e, d ≤ e ∧ e < t.height ∧
      ¬ (posn vec t.height e c i < (nodeBits vec t.height e (pre t.height e c)).length ∨
        (below vec t.height e (pre t.height e c)).length % 64 ≠ 0 ∨ below vec t.height e (pre t.height e c) = [])) →
      rankCLoop t c k d (nid t.height d c) (posn vec t.height d c i) = none := by
  intro k
  induction k with
  | zero => rintro d hd ⟨e, h1, h2, _⟩; omega
  | succ k ih =>
    rintro d hd ⟨e, h1, h2, h3⟩
    obtain ⟨s, hs, _, hr, hn⟩ := rank_step ok d c i (by omega) hc
    unfold rankCLoop
    simp only [hs, Option.bind_eq_bind, Option.bind_some]
    by_cases hd3 : posn vec t.height d c i < (nodeBits vec t.height d (pre t.height d c)).length ∨
        (below vec t.height d (pre t.height d c)).length % 64 ≠ 0 ∨ below vec t.height d (pre t.height d c) = []
    · simp only [hr hd3, Option.bind_some, nid_succ _ _ _ (show d < t.height by omega)]
      apply ih (d + 1) (by omega)
      refine ⟨e, ?_, h2, h3⟩
      by_cases hed : e = d
      · subst hed; exact absurd hd3 h3
      · omega
    · simp only [hn hd3, Option.bind_none]

theorem dom_iff (vec : List Nat) (h d c i : Nat) :
    (posn vec h d c i < (nodeBits vec h d (pre h d c)).length ∨
        (below vec h d (pre h d c)).length % 64 ≠ 0 ∨ below vec h d (pre h d c) = []) ↔
    ((∃ w ∈ vec.drop i, w / 2 ^ (h - d) = c / 2 ^ (h - d)) ∨
        (vec.countP (fun w => w / 2 ^ (h - d) == c / 2 ^ (h - d))) % 64 ≠ 0 ∨
        vec.countP (fun w => w / 2 ^ (h - d) == c / 2 ^ (h - d)) = 0) := by
  have hl : (below vec h d (pre h d c)).length = vec.countP (fun w => w / 2 ^ (h - d) == c / 2 ^ (h - d)) := by
    unfold below pre; rw [List.countP_eq_length_filter]
  have he : below vec h d (pre h d c) = [] ↔ vec.countP (fun w => w / 2 ^ (h - d) == c / 2 ^ (h - d)) = 0 := by
    rw [← hl, List.length_eq_zero_iff]
  rw [he, hl]
  apply or_congr _ Iff.rfl
  rw [nodeBits, List.length_map, hl]
  have hsplit : vec.countP (fun w => w / 2 ^ (h - d) == c / 2 ^ (h - d)) =
      (vec.take i).countP (fun w => w / 2 ^ (h - d) == c / 2 ^ (h - d)) +
      (vec.drop i).countP (fun w => w / 2 ^ (h - d) == c / 2 ^ (h - d)) := by
    rw [← List.countP_append, List.take_append_drop]
  rw [hsplit]
  unfold posn pre
  rw [show ∀ a b : Nat, (a < a + b ↔ 0 < b) from fun a b => by omega, List.countP_pos_iff]
  simp only [beq_iff_eq]

theorem size_spec {vec : List Nat} {t : WT} (ok : Ok vec t) : t.sizeOf = some vec.length := by
  obtain ⟨b, s, hs, hb, hbl⟩ := ok.node 0 0 ok.pos (by decide)
  obtain ⟨s', e', ho⟩ := Succ.build_spec false b hbl.rep.words
  rw [hb] at e'
  obtain rfl := Option.some.inj e'
  unfold WT.sizeOf
  have h0 : t.nodes[0]? = some s := hs
  simp only [h0, Option.bind_eq_bind, Option.bind_some, Option.pure_def]
  rw [ho.bits, hbl.rep.size, nodeBits, List.length_map, below, List.filter_eq_self.2]
  intro w hw
  rw [pre_zero _ _ (ok.lt w hw)]
  rfl

theorem get_spec {vec : List Nat} {t : WT} (ok : Ok vec t) (i v : Nat) (hi : vec[i]? = some v) :
    t.get i = some (v % 256) := by
  have hv : v < 2 ^ t.height := ok.lt v (List.mem_of_getElem? hi)
  have hil : i < vec.length := (List.getElem?_eq_some_iff.1 hi).1
  have hpos := ok.pos
  have h := accLoop_spec ok i v hi (t.height - 1) 0 (by omega)
  rw [nid_one _ _ hv, posn_zero ok v i hv (by omega), Nat.sub_zero, Nat.div_eq_of_lt hv, Nat.zero_mul, Nat.zero_mod] at h
  obtain ⟨s, hs, hg, _⟩ := get_step ok (t.height - 1) i v (by omega) hi
  unfold WT.get
  simp only [h, hs, hg, Option.bind_eq_bind, Option.bind_some, Option.pure_def]
  have := val_step t.height (t.height - 1) v (by omega)
  rw [show t.height - (t.height - 1) = 1 by omega, show t.height - (t.height - 1 + 1) = 0 by omega, Nat.pow_one, Nat.pow_zero,
    Nat.div_one, Nat.mul_one] at this
  rw [or_mod_256, this]

theorem rank_spec {vec : List Nat} {t : WT} (ok : Ok vec t) (i v : Nat) (hi : vec[i]? = some v) :
    t.rank i = some ((vec.take i).count v) ∧ t.accessAndRank i = some (v % 256, (vec.take i).count v) := by
  have hv : v < 2 ^ t.height := ok.lt v (List.mem_of_getElem? hi)
  have hil : i < vec.length := (List.getElem?_eq_some_iff.1 hi).1
  have h1 := rankLoop_spec ok i v hi t.height 0 (by omega)
  have h2 := accRankLoop_spec ok i v hi t.height 0 (by omega)
  rw [nid_one _ _ hv, posn_zero ok v i hv (by omega)] at h1 h2
  rw [Nat.sub_zero, Nat.div_eq_of_lt hv, Nat.zero_mul] at h2
  exact ⟨h1, h2⟩

theorem rankC_spec {vec : List Nat} {t : WT} (ok : Ok vec t) (c i : Nat) (hc : c < 2 ^ t.height) (hi : i ≤ vec.length)
    (hdom : ∀ d, d < t.height → posn vec t.height d c i < (nodeBits vec t.height d (pre t.height d c)).length ∨
        (below vec t.height d (pre t.height d c)).length % 64 ≠ 0 ∨ below vec t.height d (pre t.height d c) = []) :
    t.rankC c i = some ((vec.take i).count c) := by
  have h1 := rankCLoop_spec ok c i hc hdom t.height 0 (by omega)
  rw [nid_one _ _ hc, posn_zero ok c i hc hi] at h1
  exact h1

theorem rankC_none {vec : List Nat} {t : WT} (ok : Ok vec t) (c i : Nat) (hc : c < 2 ^ t.height) (hi : i ≤ vec.length)
    (hdom : ∃ d, d < t.height ∧ ¬ (posn vec t.height d c i < (nodeBits vec t.height d (pre t.height d c)).length ∨
        (below vec t.height d (pre t.height d c)).length % 64 ≠ 0 ∨ below vec t.height d (pre t.height d c) = [])) :
    t.rankC c i = none := by
  obtain ⟨d, hd, hn⟩ := hdom
  have h1 := rankCLoop_none ok c i hc t.height 0 (by omega) ⟨d, by omega, hd, hn⟩
  rw [nid_one _ _ hc, posn_zero ok c i hc hi] at h1
  exact h1

/-! ### Serialisation -/

theorem node_serial {vec : List Nat} {t : WT} (ok : Ok vec t) (hl : vec.length < 2 ^ 41) :
    ∀ s ∈ t.nodes, (∀ st, Succ.read false (s.write false ++ st) = some (s, st)) ∧ (s.write false).length = s.sizeInBytes false := by
  intro s hs
  obtain ⟨n, hn, rfl⟩ := List.getElem_of_mem hs
  obtain ⟨e, p, he, hp, rfl⟩ := node_of_index t.height n (by rw [← ok.len]; exact hn)
  obtain ⟨b, s', hs', hb, hbl⟩ := ok.node e p he hp
  rw [List.getElem?_eq_getElem hn] at hs'
  obtain rfl := Option.some.inj hs'
  have hnl : (nodeBits vec t.height e p).length < 2 ^ 41 := by
    rw [nodeBits, List.length_map]
    exact Nat.lt_of_le_of_lt (List.length_filter_le _ _) hl
  have key : ∀ st, Succ.read false (t.nodes[2 ^ e + p - 1].write false ++ st) = some (t.nodes[2 ^ e + p - 1], st) ∧
      (t.nodes[2 ^ e + p - 1].write false).length = t.nodes[2 ^ e + p - 1].sizeInBytes false := by
    intro st
    obtain ⟨s'', e'', h1, h2⟩ := Succ.C23_roundtrip false b _ hbl hnl st
    rw [hb] at e''
    rw [Option.some.inj e'']
    exact ⟨h1, h2⟩
  exact ⟨fun st => (key st).1, (key []).2⟩

theorem readNodes_spec (st : Stream) : ∀ (ns old : List Succ.SBV), old.length = ns.length →
    (∀ s ∈ ns, ∀ st, Succ.read false (s.write false ++ st) = some (s, st)) →
    readNodes old ((ns.map (Succ.SBV.write false)).flatten ++ st) = some (ns, st) := by
  intro ns
  induction ns with
  | nil =>
    intro old ho _
    rw [List.length_nil, List.length_eq_zero_iff] at ho
    subst ho
    rfl
  | cons n ns ih =>
    intro old ho h
    cases old with
    | nil => simp at ho
    | cons o old =>
      rw [List.map_cons, List.flatten_cons, List.append_assoc]
      unfold readNodes
      rw [h n (by simp)]
      simp only [Option.bind_eq_bind, Option.bind_some]
      rw [ih old (by simpa using ho) (fun s hs => h s (by simp [hs]))]
      rfl

theorem write_length {vec : List Nat} {t : WT} (ok : Ok vec t) (hl : vec.length < 2 ^ 41) : t.write.length = t.sizeInBytes := by
  have h := node_serial ok hl
  unfold WT.write WT.sizeInBytes
  simp only [List.length_append, writeVal_length]
  have : ∀ ns : List Succ.SBV, (∀ s ∈ ns, (s.write false).length = s.sizeInBytes false) →
      (ns.map (Succ.SBV.write false)).flatten.length = (ns.map (Succ.SBV.sizeInBytes false)).sum := by
    intro ns
    induction ns with
    | nil => intro _; rfl
    | cons n ns ih =>
      intro hn
      rw [List.map_cons, List.flatten_cons, List.length_append, List.map_cons, List.sum_cons, hn n (by simp),
        ih (fun s hs => hn s (by simp [hs]))]
  rw [this t.nodes (fun s hs => (h s hs).2)]

theorem read_head {vec : List Nat} {t : WT} (ok : Ok vec t) (hs : t.size = 0) (hlf : t.leafs < 2 ^ 31) (old : WT) (st : Stream) :
    old.read (t.write ++ st) = (readNodes old.nodes ((t.nodes.map (Succ.SBV.write false)).flatten ++ st)).bind
      (fun p => some (⟨t.height, t.leafs, t.size, p.1⟩, p.2)) := by
  have h256 : (256 : Nat) ^ 8 = 2 ^ 64 := by decide
  have hsm := ok.small
  unfold WT.read WT.write
  simp only [List.append_assoc]
  rw [readVal_writeVal 8 t.height (by rw [h256]; omega)]
  simp only [Option.bind_eq_bind, Option.bind_some]
  rw [readVal_writeVal 8 t.leafs (by rw [h256]; omega)]
  simp only [Option.bind_some]
  rw [readVal_writeVal 8 t.size (by rw [h256]; omega)]
  simp only [Option.bind_some]
  rfl

theorem read_write {vec : List Nat} {t : WT} (ok : Ok vec t) (hl : vec.length < 2 ^ 41) (hs : t.size = 0) (hlf : t.leafs < 2 ^ 31)
    (old : WT) (st : Stream) (ho : old.nodes.length = t.nodes.length) : old.read (t.write ++ st) = some (t, st) := by
  rw [read_head ok hs hlf, readNodes_spec st t.nodes old.nodes ho (fun s hs => (node_serial ok hl s hs).1)]
  rfl

theorem read_default {vec : List Nat} {t : WT} (ok : Ok vec t) (hs : t.size = 0) (hlf : t.leafs < 2 ^ 31) :
    (⟨0, 0, 0, []⟩ : WT).read t.write =
      some (⟨t.height, t.leafs, t.size, []⟩, (t.nodes.map (Succ.SBV.write false)).flatten) := by
  have := read_head ok hs hlf ⟨0, 0, 0, []⟩ []
  rw [List.append_nil, List.append_nil] at this
  rw [this]
  rfl

theorem write_ne_nil (s : Succ.SBV) : s.write false ≠ [] := by
  intro h
  have := congrArg List.length h
  simp [Succ.SBV.write, BV.BVec.write, writeVal_length] at this

end Verif.Wave

/-
Property theorems C123, second part: reading into a `WaveletTree` of another height. `Read` keeps the number of nodes of the object
(WaveletTree.hpp:131-132).
-/
import Verif.Wave.Props

namespace Verif.Wave
open Verif.Bits Verif.Serial

theorem accLoop_id (t : WT) : ∀ (k depth id idx value : Nat) (r : Nat × Nat × Nat), 2 ^ depth ≤ id → accLoop t k depth id idx value = some r →
    2 ^ (depth + k) ≤ r.2.1 := by
  intro k
  induction k with
  | zero => intro d id idx v r h e; cases e; exact h
  | succ k ih =>
    intro d id idx v r h e
    rw [accLoop] at e
    cases e1 : t.nodes[id - 1]? with
    | none => simp [e1] at e
    | some c =>
      cases e2 : c.get idx with
      | none => simp [e1, e2] at e
      | some bit =>
        cases e3 : rankBit c bit idx with
        | none => simp [e1, e2, e3] at e
        | some idx' =>
          simp only [e1, e2, e3, Option.bind_eq_bind, Option.bind_some] at e
          have := ih (d + 1) _ _ _ r (Nat.le_trans (by rw [Nat.pow_succ, Nat.shiftLeft_eq]; omega) Nat.left_le_or) e
          rwa [show d + (k + 1) = d + 1 + k by omega]

theorem rankLoop_none (t : WT) (h : Nat) (hl : t.nodes.length = 2 ^ h - 1) : ∀ (k d id idx : Nat), 2 ^ d ≤ id → d ≤ h → h < d + k →
    rankLoop t k id idx = none := by
  intro k
  induction k with
  | zero => intro d id idx _ h1 h2; omega
  | succ k ih =>
    intro d id idx h0 h1 h2
    rw [rankLoop]
    cases e1 : t.nodes[id - 1]? with
    | none => rfl
    | some c =>
      have hlt := (List.getElem?_eq_some_iff.1 e1).1
      have hd : d < h := (Nat.pow_lt_pow_iff_right (by decide : 1 < 2)).1 (by omega)
      cases e2 : c.get idx with
      | none => simp [e2]
      | some bit =>
        cases e3 : rankBit c bit idx with
        | none => simp [e2, e3]
        | some idx' =>
          simp only [e2, e3, Option.bind_eq_bind, Option.bind_some]
          exact ih (d + 1) _ _ (Nat.le_trans (by rw [Nat.pow_succ, Nat.shiftLeft_eq]; omega) Nat.left_le_or) (by omega) (by omega)

theorem accRankLoop_none (t : WT) (h : Nat) (hl : t.nodes.length = 2 ^ h - 1) : ∀ (k depth d id idx value : Nat), 2 ^ d ≤ id → d ≤ h → h < d + k →
    accRankLoop t k depth id idx value = none := by
  intro k
  induction k with
  | zero => intro _ d id idx _ _ h1 h2; omega
  | succ k ih =>
    intro depth d id idx value h0 h1 h2
    rw [accRankLoop]
    cases e1 : t.nodes[id - 1]? with
    | none => rfl
    | some c =>
      have hlt := (List.getElem?_eq_some_iff.1 e1).1
      have hd : d < h := (Nat.pow_lt_pow_iff_right (by decide : 1 < 2)).1 (by omega)
      cases e2 : c.get idx with
      | none => simp [e2]
      | some bit =>
        cases e3 : rankBit c bit idx with
        | none => simp [e2, e3]
        | some idx' =>
          simp only [e2, e3, Option.bind_eq_bind, Option.bind_some]
          exact ih _ (d + 1) _ _ _ (Nat.le_trans (by rw [Nat.pow_succ, Nat.shiftLeft_eq]; omega) Nat.left_le_or) (by omega) (by omega)

theorem rankCLoop_low (t : WT) (c : Nat) (h : Nat) (hl : t.nodes.length = 2 ^ h - 1) : ∀ (k depth d id idx : Nat), 2 ^ d ≤ id → d ≤ h → h < d + k →
    rankCLoop t c k depth id idx = none := by
  intro k
  induction k with
  | zero => intro _ d id idx _ h1 h2; omega
  | succ k ih =>
    intro depth d id idx h0 h1 h2
    rw [rankCLoop]
    cases e1 : t.nodes[id - 1]? with
    | none => rfl
    | some cbv =>
      have hlt := (List.getElem?_eq_some_iff.1 e1).1
      have hd : d < h := (Nat.pow_lt_pow_iff_right (by decide : 1 < 2)).1 (by omega)
      cases e3 : rankBit cbv (bitOf t.height depth c) idx with
      | none => simp [e3]
      | some idx' =>
        simp only [e3, Option.bind_eq_bind, Option.bind_some]
        exact ih _ (d + 1) _ _ (Nat.le_trans (by rw [Nat.pow_succ, Nat.shiftLeft_eq]; omega) Nat.left_le_or) (by omega) (by omega)

theorem readNodes_short : ∀ (ns : List Succ.SBV), (∀ s ∈ ns, ∀ st, Succ.read false (s.write false ++ st) = some (s, st)) → ∀ (old : List Succ.SBV),
    ns.length < old.length → readNodes old (ns.map (Succ.SBV.write false)).flatten = none := by
  intro ns
  induction ns with
  | nil =>
    intro _ old h
    cases old with
    | nil => cases h
    | cons o old => rfl
  | cons s ns ih =>
    intro hs old h
    cases old with
    | nil => cases h
    | cons o old =>
      rw [List.map_cons, List.flatten_cons, readNodes, hs s List.mem_cons_self]
      simp only [Option.bind_eq_bind, Option.bind_some]
      rw [ih (fun x hx => hs x (List.mem_cons_of_mem _ hx)) old (by simpa using h)]
      rfl

/-- C123 is false: read into a lower tree, the file is not read to its end and every query is undefined; read into a higher tree, the file is too
short. -/
theorem C123_height_refuted (vec vec' : List Nat) (hne : vec ≠ []) (hv : ∀ v ∈ vec, v < 2 ^ 30) (hl : vec.length < 2 ^ 41)
    (hne' : vec' ≠ []) (hv' : ∀ v ∈ vec', v < 2 ^ 30) :
    ∃ t old, make vec = some t ∧ make vec' = some old ∧
      (old.height < t.height → ∀ st, ∃ u rest, old.read (t.write ++ st) = some (u, rest) ∧ st.length < rest.length ∧
        ∀ i, u.get i = none ∧ u.rank i = none ∧ u.accessAndRank i = none ∧ ∀ c, u.rankC c i = none) ∧
      (t.height < old.height → old.read t.write = none) := by
  obtain ⟨t, e, ok, hs, hlf⟩ := make_spec vec hne hv
  obtain ⟨old, e', ok', _, _⟩ := make_spec vec' hne' hv'
  refine ⟨t, old, e, e', fun hh st => ?_, fun hh => ?_⟩
  · have hpow : 2 ^ old.height < 2 ^ t.height := Nat.pow_lt_pow_right (by decide) hh
    have hp0 : 0 < 2 ^ old.height := Nat.pow_pos (by decide)
    have hser := node_serial ok hl
    generalize hA : t.nodes.take old.nodes.length = A
    generalize hB : t.nodes.drop old.nodes.length = B
    have hAB : t.nodes = A ++ B := by rw [← hA, ← hB, List.take_append_drop]
    have hAl : A.length = old.nodes.length := by rw [← hA, List.length_take, ok.len, ok'.len]; omega
    have hBl : 0 < B.length := by rw [← hB, List.length_drop, ok.len, ok'.len]; omega
    have hr : old.read (t.write ++ st) = some (⟨t.height, t.leafs, t.size, A⟩, (B.map (Succ.SBV.write false)).flatten ++ st) := by
      rw [read_head ok hs hlf, hAB, List.map_append, List.flatten_append, List.append_assoc,
        readNodes_spec _ A old.nodes hAl.symm (fun s hs => (hser s (by rw [hAB]; exact List.mem_append_left _ hs)).1)]
      rfl
    have hlen : A.length = 2 ^ old.height - 1 := by rw [hAl, ok'.len]
    refine ⟨_, _, hr, ?_, fun i => ⟨?_, ?_, ?_, fun c => ?_⟩⟩
    · cases B with
      | nil => cases hBl
      | cons b B =>
        have := List.length_pos_iff.2 (write_ne_nil b)
        rw [List.map_cons, List.flatten_cons, List.length_append, List.length_append]
        omega
    · unfold WT.get
      generalize hu : (⟨t.height, t.leafs, t.size, A⟩ : WT) = u
      have hun : u.nodes = A := by rw [← hu]
      have huh : u.height = t.height := by rw [← hu]
      cases ea : accLoop u (u.height - 1) 0 1 i 0 with
      | none => rfl
      | some r =>
        have := accLoop_id u _ _ _ _ _ r (by decide) ea
        have h2 : 2 ^ old.height ≤ 2 ^ (0 + (u.height - 1)) := Nat.pow_le_pow_right (by decide) (by omega)
        obtain ⟨x, id, idx⟩ := r
        simp only at this
        simp only [Option.bind_eq_bind, Option.bind_some]
        rw [hun, List.getElem?_eq_none (by omega)]
        rfl
    · exact rankLoop_none _ old.height hlen t.height 0 1 i (by decide) (by omega) (by omega)
    · exact accRankLoop_none _ old.height hlen t.height 0 0 1 i 0 (by decide) (by omega) (by omega)
    · exact rankCLoop_low _ c old.height hlen t.height 0 0 1 i (by decide) (by omega) (by omega)
  · have hpow : 2 ^ t.height < 2 ^ old.height := Nat.pow_lt_pow_right (by decide) hh
    have hp0 : 0 < 2 ^ t.height := Nat.pow_pos (by decide)
    have h := read_head ok hs hlf old []
    rw [List.append_nil, List.append_nil] at h
    rw [h, readNodes_short t.nodes (fun s hs => (node_serial ok hl s hs).1) old.nodes (by rw [ok.len, ok'.len]; omega)]
    rfl

/-- Both cases occur. -/
example : ∃ t old, make [3, 1, 200, 3] = some t ∧ make [1, 0, 1] = some old ∧ old.height < t.height := by
  obtain ⟨t, e⟩ := Option.isSome_iff_exists.1 (show (make [3, 1, 200, 3]).isSome by decide +kernel)
  obtain ⟨o, e'⟩ := Option.isSome_iff_exists.1 (show (make [1, 0, 1]).isSome by decide +kernel)
  have h1 : ((make [3, 1, 200, 3]).map WT.height) = some 8 := by decide +kernel
  have h2 : ((make [1, 0, 1]).map WT.height) = some 1 := by decide +kernel
  rw [e] at h1
  rw [e'] at h2
  refine ⟨t, o, e, e', ?_⟩
  have h1 := Option.some.inj h1
  have h2 := Option.some.inj h2
  omega

/-- C123 holds for trees of the same height. -/
theorem C123_same_height_partial (vec vec' : List Nat) (hne : vec ≠ []) (hv : ∀ v ∈ vec, v < 2 ^ 30) (hl : vec.length < 2 ^ 41)
    (hne' : vec' ≠ []) (hv' : ∀ v ∈ vec', v < 2 ^ 30) :
    ∃ t old, make vec = some t ∧ make vec' = some old ∧ (t.height = old.height → ∀ st, old.read (t.write ++ st) = some (t, st)) :=
  C37_roundtrip_same_height vec vec' hne hv hl hne' hv'

example := C123_same_height_partial [3, 1, 200, 3] [255, 0] (by decide) (by decide) (by decide) (by decide) (by decide)

end Verif.Wave

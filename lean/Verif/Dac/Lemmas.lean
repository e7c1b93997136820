/-
Helper facts for DacVector.
-/
import Verif.Dac.Model
import Verif.Fit.Props
import Verif.Succ.Props
import Verif.Calc.Props

namespace Verif.Dac
open Verif.Bits Verif.Serial

/-! ### The abstract layers -/

/-- Number of bits below layer `d`. -/
def sh (units : List Nat) (d : Nat) : Nat := (units.take d).sum

theorem sh_zero (units : List Nat) : sh units 0 = 0 := rfl

theorem sh_succ (units : List Nat) (d u : Nat) (h : units[d]? = some u) : sh units (d + 1) = sh units d + u := by
  unfold sh
  rw [List.take_add_one, h]
  simp

theorem sh_mono (units : List Nat) : ∀ a b, a ≤ b → sh units a ≤ sh units b := by
  intro a b h
  obtain ⟨c, rfl⟩ := Nat.exists_eq_add_of_le h
  unfold sh
  rw [List.take_add, List.sum_append]
  omega

/-- The values arriving at layer `d`. -/
def arr (units : List Nat) (d : Nat) (xs : List Nat) : List Nat :=
  if d = 0 then xs else (xs.map (· / 2 ^ sh units d)).filter (fun y => decide (0 < y))

theorem arr_append (units : List Nat) (d : Nat) (xs : List Nat) (x : Nat) :
    arr units d (xs ++ [x]) = arr units d xs ++ (if d = 0 ∨ 0 < x / 2 ^ sh units d then [x / 2 ^ sh units d] else []) := by
  unfold arr
  by_cases h : d = 0
  · subst h; simp [sh_zero]
  · rw [if_neg h, if_neg h, List.map_append, List.filter_append]
    by_cases h2 : 0 < x / 2 ^ sh units d
    · rw [if_pos (Or.inr h2)]
      congr 1
      simp only [List.map_cons, List.map_nil]
      rw [List.filter_cons_of_pos (by simpa using h2)]; rfl
    · rw [if_neg (by rintro (h' | h'); exact h h'; exact h2 h')]
      congr 1
      simp only [List.map_cons, List.map_nil]
      rw [List.filter_cons_of_neg (by simpa using h2)]; rfl

theorem arr_succ (units : List Nat) (d u : Nat) (h : units[d]? = some u) (xs : List Nat) :
    arr units (d + 1) xs = ((arr units d xs).map (· / 2 ^ u)).filter (fun y => decide (0 < y)) := by
  have hs := sh_succ units d u h
  unfold arr
  rw [if_neg (by omega), hs]
  by_cases hd : d = 0
  · subst hd
    rw [if_pos rfl, sh_zero, Nat.zero_add]
  · rw [if_neg hd]
    induction xs with
    | nil => rfl
    | cons x xs ih =>
      have hdd : x / 2 ^ (sh units d + u) = x / 2 ^ sh units d / 2 ^ u := by rw [Nat.pow_add, Nat.div_div_eq_div_mul]
      simp only [List.map_cons, hdd]
      generalize x / 2 ^ sh units d = y
      rw [List.filter_cons, List.filter_cons, ih]
      by_cases h1 : 0 < y
      · rw [if_pos (decide_eq_true h1), List.map_cons, List.filter_cons]
      · obtain rfl : y = 0 := by omega
        rw [if_neg (by simp), if_neg (by simp)]

theorem filter_index {α : Type} (p : α → Bool) : ∀ (l : List α) (i : Nat) (a : α), l[i]? = some a → p a = true →
    (l.filter p)[(l.take i).countP p]? = some a := by
  intro l
  induction l with
  | nil => intro i a h; simp at h
  | cons b l ih =>
    intro i a h hp
    cases i with
    | zero =>
      simp only [List.getElem?_cons_zero, Option.some.injEq] at h
      subst h
      rw [List.filter_cons_of_pos hp]
      simp
    | succ i =>
      rw [List.getElem?_cons_succ] at h
      have := ih i a h hp
      rw [List.take_succ_cons]
      by_cases hb : p b = true
      · rw [List.filter_cons_of_pos hb, List.countP_cons_of_pos hb, List.getElem?_cons_succ]
        exact this
      · rw [List.filter_cons_of_neg hb, List.countP_cons_of_neg hb]
        exact this

/-! ### Concrete layers and paths -/

/-- Layer `L` of width `u` holds the list `l`. -/
structure LayOk (u : Nat) (L : Fit.FVec) (l : List Nat) : Prop where
  wf : Fit.WF L u
  elems : Fit.elems L u = l

theorem LayOk.size {u : Nat} {L : Fit.FVec} {l : List Nat} (h : LayOk u L l) : L.size = l.length := by
  rw [← h.elems, Fit.elems_length]

theorem LayOk.get {u : Nat} {L : Fit.FVec} {l : List Nat} (h : LayOk u L l) (i : Nat) (hi : i < l.length) : L.get i = l[i]? := by
  rw [← h.elems]
  exact Fit.get_spec L u h.wf i (by rw [h.size]; exact hi)

theorem LayOk.push {u : Nat} {L : Fit.FVec} {l : List Nat} (h : LayOk u L l) (x : Nat) (hx : x < 2 ^ u) :
    ∃ L', L.pushBack x = some L' ∧ LayOk u L' (l ++ [x]) := by
  obtain ⟨L', e, w, el, _⟩ := Fit.pushBack_spec L u h.wf x hx
  exact ⟨L', e, w, by rw [el, h.elems]⟩

theorem runOps_append : ∀ (os : List BV.Op) (v w : BV.BVec) (o : BV.Op), BV.runOps v os = some w →
    BV.runOps v (os ++ [o]) = BV.runOps w [o] := by
  intro os
  induction os with
  | nil => intro v w o h; cases h; rfl
  | cons a os ih =>
    intro v w o h
    simp only [BV.runOps, Option.bind_eq_bind, Option.bind_eq_some_iff] at h
    obtain ⟨v1, e1, h⟩ := h
    have := ih v1 w o h
    rw [List.cons_append, BV.runOps, e1]
    exact this

theorem specAllOk_push : ∀ (os : List BV.Op) (l : List Bool) (b : Bool), BV.specAllOk l os → BV.specAllOk l (os ++ [.pushBack b]) := by
  intro os
  induction os with
  | nil => intro l b _; exact ⟨trivial, trivial⟩
  | cons a os ih => intro l b h; exact ⟨h.1, ih _ b h.2⟩

theorem Built_push {v : BV.BVec} {l : List Bool} (h : BV.Built v l) (b : Bool) :
    ∃ v', v.pushBack b = some v' ∧ BV.Built v' (l ++ [b]) := by
  obtain ⟨i, os, v0, hok, h0, h1, rfl⟩ := h
  have hok' := specAllOk_push os _ b hok
  obtain ⟨w0, w, g0, g1, _⟩ := BV.reachable_rep i (os ++ [.pushBack b]) hok'
  rw [h0] at g0
  obtain rfl := Option.some.inj g0
  have g2 := g1
  rw [runOps_append os v0 v _ h1] at g2
  have hp : BV.runOps v [.pushBack b] = v.pushBack b := by
    simp only [BV.runOps, Option.bind_eq_bind]
    show (v.pushBack b).bind some = _
    simp
  rw [hp] at g2
  refine ⟨w, g2, i, os ++ [.pushBack b], v0, hok', h0, g1, ?_⟩
  unfold BV.specRun
  rw [List.foldl_append]
  rfl

theorem Built_empty : BV.Built BV.empty [] := ⟨.default, [], BV.empty, trivial, rfl, rfl, rfl⟩

/-- The flags stored in path `d`. -/
def flags (units : List Nat) (d u : Nat) (xs : List Nat) : List Bool := (arr units d xs).map (fun y => decide (0 < y / 2 ^ u))

/-- The state of the construction: layers below `d` and paths below `d - 1` already have the values `ys`, the
others `xs`. -/
structure Inv (units : List Nat) (d : Nat) (xs ys : List Nat) (ls : List Fit.FVec) (ps : List BV.BVec) : Prop where
  llen : ls.length = units.length
  plen : ps.length = units.length - 1
  lay : ∀ i u, units[i]? = some u → ∃ L, ls[i]? = some L ∧
    LayOk u L ((arr units i (if i < d then ys else xs)).map (· % 2 ^ u))
  pth : ∀ i u, i + 1 < units.length → units[i]? = some u → ∃ p, ps[i]? = some p ∧
    BV.Built p (flags units i u (if i + 1 < d then ys else xs))

theorem mask_mod (x : W64) (u : Nat) (hu : u ≤ 63) : ∃ m, widthMask u = some m ∧ (x &&& m).toNat = x.toNat % 2 ^ u := by
  refine ⟨(1#64 <<< u) - 1#64, by simp [widthMask]; omega, ?_⟩
  obtain ⟨m, hm, hb⟩ := C09_widthMask u (by omega)
  have : m = (1#64 <<< u) - 1#64 := by
    simp only [widthMask] at hm
    rw [if_pos (by omega)] at hm
    exact (Option.some.inj hm).symm
  rw [← this]
  apply Nat.eq_of_testBit_eq
  intro j
  rw [BitVec.testBit_toNat, BitVec.getLsbD_and, hb, Nat.testBit_mod_two_pow, BitVec.testBit_toNat, Bool.and_comm]

theorem deepLoop_spec (units : List Nat) (hu : ∀ u ∈ units, 1 ≤ u ∧ u ≤ 63) (xs : List Nat) (x : Nat) :
    ∀ (k d : Nat) (y : W64) (ls : List Fit.FVec) (ps : List BV.BVec), 1 ≤ d → d + k = units.length →
      y.toNat = x / 2 ^ sh units d → (2 ≤ d → 0 < x / 2 ^ sh units (d - 1)) → Inv units d xs (xs ++ [x]) ls ps →
      ∃ ls' ps', deepLoop units k d y ls ps = some (ls', ps') ∧ Inv units units.length xs (xs ++ [x]) ls' ps' := by
  intro k
  induction k with
  | zero =>
    intro d y ls ps _ hd _ _ h
    have : d = units.length := by omega
    rw [← this]
    exact ⟨ls, ps, rfl, h⟩
  | succ k ih =>
    intro d y ls ps hd1 hdk hy hprev h
    have hdl : d < units.length := by omega
    obtain ⟨ud, hud⟩ : ∃ u, units[d]? = some u := ⟨_, List.getElem?_eq_getElem hdl⟩
    obtain ⟨up, hup⟩ : ∃ u, units[d - 1]? = some u := ⟨_, List.getElem?_eq_getElem (by omega)⟩
    have hudb := hu ud (List.mem_of_getElem? hud)
    have hs : sh units d = sh units (d - 1) + up := by
      have := sh_succ units (d - 1) up hup
      rwa [show d - 1 + 1 = d by omega] at this
    obtain ⟨p, hp, hpb⟩ := h.pth (d - 1) up (by omega) hup
    rw [if_neg (by omega)] at hpb
    obtain ⟨p', ep, hpb'⟩ := Built_push hpb (decide (y ≠ 0#64))
    have hpl : d - 1 < ps.length := by rw [h.plen]; omega
    have hyz : y = 0#64 ↔ x / 2 ^ sh units d = 0 := by
      rw [← hy]
      constructor
      · rintro rfl; rfl
      · intro h0; apply BitVec.eq_of_toNat_eq; simpa using h0
    have hnew : flags units (d - 1) up (xs ++ [x]) = flags units (d - 1) up xs ++ [decide (y ≠ 0#64)] := by
      unfold flags
      rw [arr_append, List.map_append]
      congr 1
      rw [if_pos]
      · simp only [List.map_cons, List.map_nil]
        rw [Nat.div_div_eq_div_mul, ← Nat.pow_add, ← hs]
        congr 1
        simp only [decide_eq_decide]
        rw [ne_eq, hyz]; omega
      · by_cases h2 : d = 1
        · left; omega
        · right; exact hprev (by omega)
    rw [← hnew] at hpb'
    have hinv2 : ∀ i u, i + 1 < units.length → units[i]? = some u → ∃ q, (ps.set (d - 1) p')[i]? = some q ∧
        BV.Built q (flags units i u (if i + 1 < d + 1 then xs ++ [x] else xs)) := by
      intro i u hi hiu
      by_cases hid : i = d - 1
      · subst hid
        rw [hup] at hiu
        obtain rfl := Option.some.inj hiu
        refine ⟨p', by rw [List.getElem?_set, if_pos rfl, if_pos hpl], ?_⟩
        rw [if_pos (by omega)]
        exact hpb'
      · obtain ⟨q, hq, hqb⟩ := h.pth i u hi hiu
        refine ⟨q, by rw [List.getElem?_set, if_neg (by omega)]; exact hq, ?_⟩
        by_cases hlt : i + 1 < d
        · rw [if_pos (by omega)]; rwa [if_pos hlt] at hqb
        · rw [if_neg (by omega)]; rwa [if_neg hlt] at hqb
    unfold deepLoop
    simp only [hp, Option.bind_eq_bind, Option.bind_some, ep, Verif.wr_eq _ _ _ hpl]
    by_cases hy0 : y = 0#64
    · rw [if_pos hy0]
      have hz := hyz.1 hy0
      refine ⟨ls, ps.set (d - 1) p', rfl, h.llen, by rw [List.length_set]; exact h.plen, ?_, ?_⟩
      · have hzz : ∀ i, d ≤ i → arr units i (xs ++ [x]) = arr units i xs := by
          intro i hi
          rw [arr_append, if_neg, List.append_nil]
          rintro (h0 | h0)
          · omega
          · have h1 : x / 2 ^ sh units i ≤ x / 2 ^ sh units d :=
              Nat.div_le_div_left (Nat.pow_le_pow_right (by decide) (sh_mono units _ _ hi)) (Nat.pow_pos (by decide))
            omega
        intro i u hiu
        obtain ⟨L, hL, hLo⟩ := h.lay i u hiu
        refine ⟨L, hL, ?_⟩
        have hil : i < units.length := (List.getElem?_eq_some_iff.1 hiu).1
        rw [if_pos hil]
        by_cases hlt : i < d
        · rwa [if_pos hlt] at hLo
        · rw [if_neg hlt] at hLo
          rw [hzz i (by omega)]; exact hLo
      · have hzz : ∀ i u, d ≤ i → flags units i u (xs ++ [x]) = flags units i u xs := by
          intro i u hi
          unfold flags
          rw [arr_append, if_neg, List.append_nil]
          rintro (h0 | h0)
          · omega
          · have h1 : x / 2 ^ sh units i ≤ x / 2 ^ sh units d :=
              Nat.div_le_div_left (Nat.pow_le_pow_right (by decide) (sh_mono units _ _ hi)) (Nat.pow_pos (by decide))
            omega
        intro i u hi hiu
        obtain ⟨q, hq, hqb⟩ := hinv2 i u hi hiu
        refine ⟨q, hq, ?_⟩
        rw [if_pos hi]
        by_cases hlt : i + 1 < d + 1
        · rwa [if_pos hlt] at hqb
        · rw [if_neg hlt] at hqb
          rw [hzz i u (by omega)]; exact hqb
    · rw [if_neg hy0]
      have hpos : 0 < x / 2 ^ sh units d := by
        have := mt hyz.2 hy0
        omega
      obtain ⟨m, hm, hmod⟩ := mask_mod y ud hudb.2
      obtain ⟨L, hL, hLo⟩ := h.lay d ud hud
      rw [if_neg (by omega)] at hLo
      obtain ⟨L', eL, hLo'⟩ := hLo.push ((y &&& m).toNat) (by rw [hmod]; exact Nat.mod_lt _ (Nat.pow_pos (by decide)))
      have hll : d < ls.length := by rw [h.llen]; exact hdl
      simp only [hud, hm, hL, eL, Verif.wr_eq _ _ _ hll, Option.bind_some]
      have hlay : List.map (· % 2 ^ ud) (arr units d (xs ++ [x])) = List.map (· % 2 ^ ud) (arr units d xs) ++ [(y &&& m).toNat] := by
        rw [arr_append, if_pos (Or.inr hpos), List.map_append, hmod, hy]
        rfl
      rw [← hlay] at hLo'
      apply ih (d + 1) (y >>> ud) _ _ (by omega) (by omega)
      · rw [BitVec.toNat_ushiftRight, Nat.shiftRight_eq_div_pow, hy, Nat.div_div_eq_div_mul, ← Nat.pow_add, sh_succ units d ud hud]
      · intro _; rw [show d + 1 - 1 = d by omega]; exact hpos
      · refine ⟨by rw [List.length_set]; exact h.llen, by rw [List.length_set]; exact h.plen, ?_, hinv2⟩
        intro i u hiu
        by_cases hid : i = d
        · subst hid
          rw [hud] at hiu
          obtain rfl := Option.some.inj hiu
          refine ⟨L', by rw [List.getElem?_set, if_pos rfl, if_pos hll], ?_⟩
          rw [if_pos (by omega)]
          exact hLo'
        · obtain ⟨M, hM, hMo⟩ := h.lay i u hiu
          refine ⟨M, by rw [List.getElem?_set, if_neg (by omega)]; exact hM, ?_⟩
          by_cases hlt : i < d
          · rw [if_pos (by omega)]; rwa [if_pos hlt] at hMo
          · rw [if_neg (by omega)]; rwa [if_neg hlt] at hMo

/-- The state between two values. -/
def St (units xs : List Nat) (ls : List Fit.FVec) (ps : List BV.BVec) : Prop := Inv units 0 xs xs ls ps

theorem addValue_spec (units : List Nat) (hne : units ≠ []) (hu : ∀ u ∈ units, 1 ≤ u ∧ u ≤ 63) (xs : List Nat) (x : Nat)
    (hx : x < 2 ^ 64) (ls : List Fit.FVec) (ps : List BV.BVec) (h : St units xs ls ps) :
    ∃ ls' ps', addValue units x ls ps = some (ls', ps') ∧ St units (xs ++ [x]) ls' ps' := by
  have hl := List.length_pos_iff.2 hne
  obtain ⟨u, hu0⟩ : ∃ u, units[0]? = some u := ⟨_, List.getElem?_eq_getElem hl⟩
  have hub := hu u (List.mem_of_getElem? hu0)
  obtain ⟨m, hm, hmod⟩ := mask_mod (BitVec.ofNat 64 x) u hub.2
  have hxn : (BitVec.ofNat 64 x).toNat = x := by rw [BitVec.toNat_ofNat]; exact Nat.mod_eq_of_lt hx
  obtain ⟨L, hL, hLo⟩ := h.lay 0 u hu0
  rw [if_neg (by omega)] at hLo
  obtain ⟨L', eL, hLo'⟩ := hLo.push ((BitVec.ofNat 64 x &&& m).toNat) (by rw [hmod]; exact Nat.mod_lt _ (Nat.pow_pos (by decide)))
  have hll : 0 < ls.length := by rw [h.llen]; exact hl
  unfold addValue
  simp only [hu0, hm, hL, eL, Verif.wr_eq _ _ _ hll, Option.bind_eq_bind, Option.bind_some]
  have hlay : List.map (· % 2 ^ u) (arr units 0 (xs ++ [x])) = List.map (· % 2 ^ u) (arr units 0 xs) ++ [(BitVec.ofNat 64 x &&& m).toNat] := by
    rw [arr_append, if_pos (Or.inl rfl), List.map_append, hmod, hxn, sh_zero]
    simp
  rw [← hlay] at hLo'
  obtain ⟨ls', ps', e, hi⟩ := deepLoop_spec units hu xs x (units.length - 1) 1 (BitVec.ofNat 64 x >>> u) (ls.set 0 L') ps
    (by omega) (by omega)
    (by rw [BitVec.toNat_ushiftRight, Nat.shiftRight_eq_div_pow, hxn, sh_succ units 0 u hu0, sh_zero, Nat.zero_add])
    (by omega)
    (by
      refine ⟨by rw [List.length_set]; exact h.llen, h.plen, ?_, ?_⟩
      · intro i v hiv
        by_cases hi0 : i = 0
        · subst hi0
          rw [hu0] at hiv
          obtain rfl := Option.some.inj hiv
          refine ⟨L', by rw [List.getElem?_set, if_pos rfl, if_pos hll], ?_⟩
          rw [if_pos (by omega)]
          exact hLo'
        · obtain ⟨M, hM, hMo⟩ := h.lay i v hiv
          refine ⟨M, by rw [List.getElem?_set, if_neg (by omega)]; exact hM, ?_⟩
          rw [if_neg (by omega)]; rwa [if_neg (by omega)] at hMo
      · intro i v hi hiv
        obtain ⟨q, hq, hqb⟩ := h.pth i v hi hiv
        refine ⟨q, hq, ?_⟩
        rw [if_neg (by omega)]; rwa [if_neg (by omega)] at hqb)
  refine ⟨ls', ps', e, hi.llen, hi.plen, ?_, ?_⟩
  · intro i v hiv
    obtain ⟨M, hM, hMo⟩ := hi.lay i v hiv
    rw [if_pos (List.getElem?_eq_some_iff.1 hiv).1] at hMo
    exact ⟨M, hM, by rw [ite_self]; exact hMo⟩
  · intro i v hil hiv
    obtain ⟨q, hq, hqb⟩ := hi.pth i v hil hiv
    rw [if_pos hil] at hqb
    exact ⟨q, hq, by rw [ite_self]; exact hqb⟩

theorem addAll_spec (units : List Nat) (hne : units ≠ []) (hu : ∀ u ∈ units, 1 ≤ u ∧ u ≤ 63) :
    ∀ (vs xs : List Nat) (ls : List Fit.FVec) (ps : List BV.BVec), (∀ v ∈ vs, v < 2 ^ 64) → St units xs ls ps →
      ∃ ls' ps', addAll units vs ls ps = some (ls', ps') ∧ St units (xs ++ vs) ls' ps' := by
  intro vs
  induction vs with
  | nil => intro xs ls ps _ h; exact ⟨ls, ps, rfl, by rw [List.append_nil]; exact h⟩
  | cons v vs ih =>
    intro xs ls ps hv h
    obtain ⟨l1, p1, e1, h1⟩ := addValue_spec units hne hu xs v (hv v (by simp)) ls ps h
    obtain ⟨l2, p2, e2, h2⟩ := ih (xs ++ [v]) l1 p1 (fun w hw => hv w (by simp [hw])) h1
    refine ⟨l2, p2, by simp [addAll, e1, e2], ?_⟩
    rw [List.append_assoc] at h2
    exact h2

theorem newLayers_spec : ∀ (units : List Nat), (∀ u ∈ units, 1 ≤ u ∧ u ≤ 63) →
    ∃ ls, newLayers units = some ls ∧ ls.length = units.length ∧
      ∀ (i u : Nat), units[i]? = some u → ∃ L, ls[i]? = some L ∧ LayOk u L [] := by
  intro units
  induction units with
  | nil => intro _; exact ⟨[], rfl, rfl, by simp⟩
  | cons u us ih =>
    intro hu
    obtain ⟨L, e, w, el, _⟩ := Fit.new_spec u (hu u (by simp)).1 (hu u (by simp)).2
    obtain ⟨ls, e2, hl, h2⟩ := ih (fun v hv => hu v (by simp [hv]))
    refine ⟨L :: ls, by simp [newLayers, e, e2], by simp [hl], ?_⟩
    intro i v hv
    cases i with
    | zero =>
      simp only [List.getElem?_cons_zero, Option.some.injEq] at hv
      subst hv
      exact ⟨L, rfl, w, el⟩
    | succ i =>
      rw [List.getElem?_cons_succ] at hv
      rw [List.getElem?_cons_succ]
      exact h2 i v hv

theorem buildPaths_spec : ∀ (ps : List BV.BVec) (F : Nat → List Bool), (∀ (i : Nat) p, ps[i]? = some p → BV.Built p (F i)) →
    ∃ ss, buildPaths ps = some ss ∧ ss.length = ps.length ∧
      ∀ (i : Nat) p, ps[i]? = some p → ∃ s, ss[i]? = some s ∧ Succ.build false p = some s := by
  intro ps
  induction ps with
  | nil => intro F _; exact ⟨[], rfl, rfl, by simp⟩
  | cons p ps ih =>
    intro F h
    obtain ⟨s, e, _⟩ := Succ.C20_rank false p (F 0) (h 0 p rfl)
    obtain ⟨ss, e2, hl, h2⟩ := ih (fun i => F (i + 1)) (fun i q hq => h (i + 1) q (by rw [List.getElem?_cons_succ]; exact hq))
    refine ⟨s :: ss, by simp [buildPaths, e, e2], by simp [hl], ?_⟩
    intro i q hq
    cases i with
    | zero =>
      simp only [List.getElem?_cons_zero, Option.some.injEq] at hq
      subst hq
      exact ⟨s, rfl, e⟩
    | succ i =>
      rw [List.getElem?_cons_succ] at hq
      rw [List.getElem?_cons_succ]
      exact h2 i q hq

theorem reserveLoop_spec (cf : List Nat) : ∀ (us : List Nat) (t : Nat),
    (∀ i, i < us.length → t + sh us i < cf.length) ↔ reserveLoop cf us t = some () := by
  intro us
  induction us with
  | nil => intro t; simp [reserveLoop]
  | cons u us ih =>
    intro t
    unfold reserveLoop
    by_cases h : t < cf.length
    · rw [List.getElem?_eq_getElem h]
      simp only [Option.bind_eq_bind, Option.bind_some]
      rw [← ih (t + u)]
      constructor
      · intro H i hi
        have := H (i + 1) (by simp; omega)
        simp only [sh, List.take_succ_cons, List.sum_cons] at this ⊢
        omega
      · intro H i hi
        cases i with
        | zero => simpa [sh] using h
        | succ i =>
          have := H i (by simp at hi; omega)
          simp only [sh, List.take_succ_cons, List.sum_cons] at this ⊢
          omega
    · rw [List.getElem?_eq_none (by omega)]
      simp only [Option.bind_eq_bind, Option.bind_none]
      constructor
      · intro H
        have := H 0 (by simp)
        simp [sh] at this; omega
      · intro H; exact absurd H (by simp)

/-- A finished object holding `xs`. -/
structure Ok (units xs : List Nat) (d : Dac) : Prop where
  num : d.num = some units.length
  us : d.units = units
  llen : d.layers.length = units.length
  plen : d.paths.length = units.length - 1
  lay : ∀ i u, units[i]? = some u → ∃ L, d.layers[i]? = some L ∧ LayOk u L ((arr units i xs).map (· % 2 ^ u))
  pth : ∀ i u, i + 1 < units.length → units[i]? = some u → ∃ p s, d.paths[i]? = some s ∧
    Succ.build false p = some s ∧ BV.Built p (flags units i u xs)

theorem ofUnits_spec (list units : List Nat) (hne : list ≠ []) (hune : units ≠ []) (hu : ∀ u ∈ units, 1 ≤ u ∧ u ≤ 63)
    (hl : ∀ v ∈ list, v < 2 ^ 63) (cf : List Nat) (hcf : Calc.cumulativeFrequencyList list = some cf)
    (hres : reserveLoop cf units 0 = some ()) : ∃ d, ofUnits list units = some d ∧ Ok units list d := by
  obtain ⟨ls0, e0, hl0, h0⟩ := newLayers_spec units hu
  have hst : St units [] ls0 (List.replicate (units.length - 1) BV.empty) := by
    refine ⟨hl0, List.length_replicate, ?_, ?_⟩
    · intro i u hiu
      obtain ⟨L, hL, hLo⟩ := h0 i u hiu
      refine ⟨L, hL, ?_⟩
      rw [ite_self]
      have : arr units i [] = [] := by unfold arr; split <;> rfl
      rw [this]; exact hLo
    · intro i u hi hiu
      refine ⟨BV.empty, by rw [List.getElem?_replicate, if_pos (by omega)], ?_⟩
      rw [ite_self]
      have : arr units i [] = [] := by unfold arr; split <;> rfl
      unfold flags
      rw [this]; exact Built_empty
  obtain ⟨ls, ps, e1, h1⟩ := addAll_spec units hune hu list [] ls0 _
    (fun v hv => Nat.lt_of_lt_of_le (hl v hv) (by decide)) hst
  rw [List.nil_append] at h1
  obtain ⟨ss, e2, hsl, h2⟩ := buildPaths_spec ps (fun i => flags units i (units.getD i 0) list) (by
    intro i p hp
    have hil : i < ps.length := (List.getElem?_eq_some_iff.1 hp).1
    rw [h1.plen] at hil
    have hlt : i < units.length := by omega
    obtain ⟨q, hq, hqb⟩ := h1.pth i _ (by omega) (List.getElem?_eq_getElem hlt)
    rw [hp] at hq
    obtain rfl := Option.some.inj hq
    rw [ite_self] at hqb
    rw [List.getD_eq_getElem?_getD, List.getElem?_eq_getElem hlt]
    exact hqb)
  unfold ofUnits
  rw [if_neg hne]
  simp only [e0, hcf, hres, e1, e2, Option.bind_eq_bind, Option.bind_some, Option.pure_def]
  refine ⟨_, rfl, rfl, rfl, h1.llen, by rw [← h1.plen]; exact hsl, ?_, ?_⟩
  · intro i u hiu
    obtain ⟨L, hL, hLo⟩ := h1.lay i u hiu
    rw [ite_self] at hLo
    exact ⟨L, hL, hLo⟩
  · intro i u hi hiu
    obtain ⟨p, hp, hpb⟩ := h1.pth i u hi hiu
    rw [ite_self] at hpb
    obtain ⟨s, hs, hsb⟩ := h2 i p hp
    exact ⟨p, s, hs, hsb, hpb⟩

/-! ### Reading -/

theorem or_shift (x s u : Nat) :
    (BitVec.ofNat 64 (x % 2 ^ s) ||| (BitVec.ofNat 64 (x / 2 ^ s % 2 ^ u) <<< s)) = BitVec.ofNat 64 (x % 2 ^ (s + u)) := by
  apply BitVec.eq_of_getLsbD_eq
  intro j hj
  rw [BitVec.getLsbD_or, BitVec.getLsbD_ofNat, BitVec.getLsbD_shiftLeft, BitVec.getLsbD_ofNat, BitVec.getLsbD_ofNat,
    Nat.testBit_mod_two_pow, Nat.testBit_mod_two_pow, Nat.testBit_mod_two_pow, Nat.testBit_div_two_pow]
  by_cases h : j < s
  · have h2 : j < s + u := by omega
    simp [hj, h, h2]
  · have h3 : j - s + s = j := by omega
    have h4 : j - s < 64 := by omega
    have h5 : (j - s < u) ↔ (j < s + u) := by omega
    simp [hj, h, h4, h5, h3]

/-- One step along a path. -/
theorem path_step {units xs : List Nat} {d : Dac} (h : Ok units xs d) (j i x u : Nat) (hj : j + 1 < units.length)
    (hu : units[j]? = some u) (hi : (arr units j xs)[i]? = some (x / 2 ^ sh units j)) :
    ∃ s, d.paths[j]? = some s ∧ s.get i = some (decide (0 < x / 2 ^ sh units (j + 1))) ∧
      (0 < x / 2 ^ sh units (j + 1) → ∃ i', s.rank1 i = some i' ∧
        (arr units (j + 1) xs)[i']? = some (x / 2 ^ sh units (j + 1))) := by
  obtain ⟨p, s, hs, hb, hbl⟩ := h.pth j u hj hu
  obtain ⟨s', e', hr⟩ := Succ.C20_rank false p _ hbl
  rw [hb] at e'
  obtain rfl := Option.some.inj e'
  have hlen : i < (flags units j u xs).length := by
    rw [flags, List.length_map]
    exact (List.getElem?_eq_some_iff.1 hi).1
  obtain ⟨r1, _, r3⟩ := hr i hlen
  have hdiv : x / 2 ^ sh units j / 2 ^ u = x / 2 ^ sh units (j + 1) := by
    rw [Nat.div_div_eq_div_mul, ← Nat.pow_add, sh_succ units j u hu]
  refine ⟨s, hs, ?_, ?_⟩
  · rw [r3, flags, List.getElem?_map, hi, Option.map_some, hdiv]
  · intro hpos
    refine ⟨_, r1, ?_⟩
    rw [arr_succ units j u hu]
    have hf := filter_index (fun y => decide (0 < y)) ((arr units j xs).map (· / 2 ^ u)) i (x / 2 ^ sh units (j + 1))
      (by rw [List.getElem?_map, hi, Option.map_some, hdiv]) (by simpa using hpos)
    have hc : List.count true (List.take i (flags units j u xs)) =
        List.countP (fun y => decide (0 < y)) (List.take i (List.map (· / 2 ^ u) (arr units j xs))) := by
      unfold flags
      rw [← List.map_take, ← List.map_take, List.count_eq_countP, List.countP_map, List.countP_map]
      apply List.countP_congr
      intro a _
      simp
    rw [hc]
    exact hf

theorem getLoop_spec {units xs : List Nat} {d : Dac} (h : Ok units xs d) (x : Nat) (hx : x < 2 ^ 64) (hxs : x < 2 ^ sh units units.length) :
    ∀ (k dep i : Nat), 1 ≤ dep → dep + k = units.length → (arr units (dep - 1) xs)[i]? = some (x / 2 ^ sh units (dep - 1)) →
      getLoop d k dep (sh units dep) i (BitVec.ofNat 64 (x % 2 ^ sh units dep)) = some (BitVec.ofNat 64 x) := by
  intro k
  induction k with
  | zero =>
    intro dep i h1 h2 _
    have : dep = units.length := by omega
    unfold getLoop
    rw [this, Nat.mod_eq_of_lt hxs]
  | succ k ih =>
    intro dep i h1 h2 hi
    obtain ⟨u, hu⟩ : ∃ u, units[dep - 1]? = some u := ⟨_, List.getElem?_eq_getElem (by omega)⟩
    obtain ⟨ud, hud⟩ : ∃ u, units[dep]? = some u := ⟨_, List.getElem?_eq_getElem (by omega)⟩
    obtain ⟨s, hs, hg, hr⟩ := path_step h (dep - 1) i x u (by omega) hu hi
    rw [show dep - 1 + 1 = dep by omega] at hg hr
    unfold getLoop
    simp only [hs, hg, Option.bind_eq_bind, Option.bind_some]
    by_cases hpos : 0 < x / 2 ^ sh units dep
    · rw [if_neg (by simp [hpos])]
      obtain ⟨i', e', hi'⟩ := hr hpos
      obtain ⟨L, hL, hLo⟩ := h.lay dep ud hud
      have hlen : i' < ((arr units dep xs).map (· % 2 ^ ud)).length := by
        rw [List.length_map]; exact (List.getElem?_eq_some_iff.1 hi').1
      have hget := hLo.get i' hlen
      rw [List.getElem?_map, hi', Option.map_some] at hget
      simp only [e', hL, hget, Option.bind_some]
      have h64 : sh units dep < 64 := by
        rcases Nat.lt_or_ge (sh units dep) 64 with h' | h'
        · exact h'
        · have : x / 2 ^ sh units dep = 0 :=
            Nat.div_eq_of_lt (Nat.lt_of_lt_of_le hx (Nat.pow_le_pow_right (by decide) h'))
          omega
      rw [if_pos h64]
      simp only [h.us, hud, Option.bind_some]
      rw [or_shift x, ← sh_succ units dep ud hud]
      apply ih (dep + 1) i' (by omega) (by omega)
      rw [show dep + 1 - 1 = dep by omega]
      exact hi'
    · rw [if_pos (decide_eq_false hpos)]
      have : x < 2 ^ sh units dep := by
        rcases Nat.lt_or_ge x (2 ^ sh units dep) with h' | h'
        · exact h'
        · exact absurd (Nat.div_pos h' (Nat.pow_pos (by decide))) hpos
      rw [Nat.mod_eq_of_lt this]
      rfl

theorem get_spec {units xs : List Nat} {d : Dac} (h : Ok units xs d) (hne : units ≠ []) (hxs : ∀ x ∈ xs, x < 2 ^ 63 ∧ x < 2 ^ units.sum)
    (i : Nat) (hi : i < xs.length) : d.get i = xs[i]? := by
  have hl := List.length_pos_iff.2 hne
  obtain ⟨u, hu0⟩ : ∃ u, units[0]? = some u := ⟨_, List.getElem?_eq_getElem hl⟩
  obtain ⟨L, hL, hLo⟩ := h.lay 0 u hu0
  have hx : xs[i]? = some xs[i] := List.getElem?_eq_getElem hi
  obtain ⟨hx63, hxsum⟩ := hxs xs[i] (List.getElem_mem hi)
  have hx64 : xs[i] < 2 ^ 64 := Nat.lt_of_lt_of_le hx63 (by decide)
  have hsum : sh units units.length = units.sum := by unfold sh; rw [List.take_length]
  generalize xs[i] = x at *
  have harr : (arr units 0 xs)[i]? = some x := by unfold arr; rw [if_pos rfl]; exact hx
  have hget := hLo.get i (by rw [List.length_map]; exact (List.getElem?_eq_some_iff.1 harr).1)
  rw [List.getElem?_map, harr, Option.map_some] at hget
  unfold Dac.get
  simp only [hL, hget, h.us, hu0, h.num, Option.bind_eq_bind, Option.bind_some, Option.pure_def]
  have hs1 : sh units 1 = u := by rw [sh_succ units 0 u hu0, sh_zero, Nat.zero_add]
  have := getLoop_spec h x hx64 (by rw [hsum]; exact hxsum) (units.length - 1) 1 i (by omega) (by omega)
    (by simpa [sh_zero] using harr)
  rw [hs1] at this
  rw [this, hx]
  simp only [Option.bind_some, BitVec.toNat_ofNat]
  rw [Nat.mod_eq_of_lt hx64]

theorem depthLoop_spec {units xs : List Nat} {d : Dac} (h : Ok units xs d) (x : Nat) :
    ∀ (k dep i : Nat), dep + k + 1 = units.length → (arr units dep xs)[i]? = some (x / 2 ^ sh units dep) →
      ∃ r, depthLoop d k dep i = some r ∧ dep ≤ r ∧ r < units.length ∧
        (r + 1 < units.length → x < 2 ^ sh units (r + 1)) ∧ (dep < r → 2 ^ sh units r ≤ x) := by
  intro k
  induction k with
  | zero => intro dep i h1 _; exact ⟨dep, rfl, Nat.le_refl _, by omega, by omega, by omega⟩
  | succ k ih =>
    intro dep i h1 hi
    obtain ⟨u, hu⟩ : ∃ u, units[dep]? = some u := ⟨_, List.getElem?_eq_getElem (by omega)⟩
    obtain ⟨s, hs, hg, hr⟩ := path_step h dep i x u (by omega) hu hi
    unfold depthLoop
    simp only [hs, hg, Option.bind_eq_bind, Option.bind_some]
    have hpow : 0 < 2 ^ sh units (dep + 1) := Nat.pow_pos (by decide)
    by_cases hpos : 0 < x / 2 ^ sh units (dep + 1)
    · rw [if_neg (by simp [hpos])]
      obtain ⟨i', e', hi'⟩ := hr hpos
      simp only [e', Option.bind_some]
      obtain ⟨r, er, g1, g2, g3, g4⟩ := ih (dep + 1) i' (by omega) hi'
      refine ⟨r, er, by omega, g2, g3, ?_⟩
      intro _
      by_cases hr1 : r = dep + 1
      · subst hr1
        exact (Nat.div_pos_iff.1 hpos).2
      · exact g4 (by omega)
    · rw [if_pos (decide_eq_false hpos)]
      refine ⟨dep, rfl, Nat.le_refl _, by omega, ?_, by omega⟩
      intro _
      rcases Nat.lt_or_ge x (2 ^ sh units (dep + 1)) with h' | h'
      · exact h'
      · exact absurd (Nat.div_pos h' hpow) hpos

end Verif.Dac

/-
Property theorems C30, C31 and C65 (MultiBitVector).
-/
import Verif.MBit.Lemmas
import Verif.Serial.Props

namespace Verif.MBit
open Verif.Bits Verif.Serial

/-! ### Histories -/

/-- Mutating calls. -/
inductive Op
  | set (i x : Nat)
  | resize (i : Nat)
  | build

/-- Values stored must be units. -/
def Op.Ok (S : Nat) : Op → Prop
  | .set _ x => x < 2 ^ S
  | _ => True

/-- Storage grows to whole words of `64 / S` elements: the size once index `i` exists. -/
def roundUp (S i : Nat) : Nat := (64 / S) * (i / (64 / S) + 1)

/-- What `operator[]` should give, `none` outside of the storage. -/
def specStep (S : Nat) (f : Nat → Option Nat) : Op → Nat → Option Nat
  | .set i x, j => if j = i then some x else if (f j).isSome then f j else if j < roundUp S i then some 0 else none
  | .resize i, j => if j < roundUp S i then some ((f j).getD 0) else none
  | .build, j => f j

def specRun (S : Nat) (os : List Op) : Nat → Option Nat := os.foldl (specStep S) (fun _ => none)

/-- The calls on the model. -/
def stepM (S : Nat) (v : MBV) : Op → Option MBV
  | .set i x => v.set S i x
  | .resize i => some (v.resize S i)
  | .build => v.build S

def runM (S : Nat) (v : MBV) : List Op → Option MBV
  | [] => some v
  | o :: os => do
    let v ← stepM S v o
    runM S v os

theorem per_eq {S : Nat} (hS : S = 1 ∨ S = 2 ∨ S = 3) : per S = 64 / S := by
  rcases hS with rfl | rfl | rfl <;> rfl

theorem step_ok {S : Nat} (hS : S = 1 ∨ S = 2 ∨ S = 3) (v : MBV) (o : Op) (ho : o.Ok S) (ht : v.tips.length = 2 ^ S) :
    ∃ v', stepM S v o = some v' ∧ v'.tips.length = 2 ^ S ∧ ∀ j, v'.get S j = specStep S (v.get S) o j := by
  have hp := per_pos hS
  cases o with
  | set i x =>
    obtain ⟨v', e, h1, h2, h3⟩ := set_spec hS v i x ho
    refine ⟨v', e, by rw [h1]; exact ht, ?_⟩
    intro j
    have hru : roundUp S i = per S * (i / per S + 1) := by rw [roundUp, per_eq hS]
    simp only [specStep, hru]
    rw [get_spec hS, get_spec hS, h2, h3]
    have hi : i < per S * (i / per S + 1) := Nat.lt_mul_div_succ i hp
    have hmax : per S * max v.words.length (i / per S + 1) = max (per S * v.words.length) (per S * (i / per S + 1)) :=
      Nat.mul_max_mul_left _ _ _ |>.symm
    rw [hmax]
    by_cases hj : j = i
    · subst hj
      rw [if_pos rfl, if_pos rfl, if_pos (by omega)]
    · rw [if_neg hj, if_neg hj]
      by_cases h : j < per S * v.words.length
      · rw [if_pos (by omega), if_pos h]; simp
      · rw [if_neg h]
        simp only [Option.isSome_none, Bool.false_eq_true, if_false]
        by_cases h5 : j < per S * (i / per S + 1)
        · rw [if_pos (by omega), if_pos h5]
          congr 1
          unfold elem
          rw [List.getD_eq_getElem?_getD, List.getElem?_eq_none, Option.getD_none, fv_zero]
          rw [Nat.le_div_iff_mul_le hp, Nat.mul_comm]; omega
        · rw [if_neg (by omega), if_neg h5]
  | resize i =>
    refine ⟨_, rfl, ht, ?_⟩
    intro j
    have hru : roundUp S i = per S * (i / per S + 1) := by rw [roundUp, per_eq hS]
    simp only [specStep, hru]
    rw [get_spec hS, get_spec hS]
    have hl : (v.resize S i).words.length = i / per S + 1 := Verif.vresize_length _ _ _
    rw [hl]
    by_cases h5 : j < per S * (i / per S + 1)
    · rw [if_pos h5, if_pos h5]
      have hjq : j / per S < i / per S + 1 := by rw [Nat.div_lt_iff_lt_mul hp, Nat.mul_comm]; exact h5
      have hd : j / per S < v.words.length ↔ j < per S * v.words.length := by
        rw [Nat.div_lt_iff_lt_mul hp, Nat.mul_comm]
      have hw : (v.resize S i).words = Verif.vresize v.words (i / per S + 1) 0#64 := rfl
      rw [hw]
      unfold elem
      rw [List.getD_eq_getElem?_getD]
      unfold Verif.vresize
      by_cases h : j < per S * v.words.length
      · rw [if_pos h, List.getElem?_append_left (by rw [List.length_take]; omega), List.getElem?_take, if_pos hjq,
          List.getD_eq_getElem?_getD]
        rfl
      · rw [if_neg h, List.getElem?_append_right (by rw [List.length_take]; omega), List.getElem?_replicate]
        split <;> simp [fv_zero]
    · rw [if_neg h5, if_neg h5]
  | build =>
    obtain ⟨v', e, h1, h2, _⟩ := build_spec hS v ht
    refine ⟨v', e, h2, ?_⟩
    intro j
    rw [get_spec hS, h1]
    show _ = v.get S j
    rw [get_spec hS]

theorem run_ok {S : Nat} (hS : S = 1 ∨ S = 2 ∨ S = 3) : ∀ (os : List Op) (v : MBV), (∀ o ∈ os, o.Ok S) → v.tips.length = 2 ^ S →
    ∃ v', runM S v os = some v' ∧ v'.tips.length = 2 ^ S ∧ ∀ j, v'.get S j = os.foldl (specStep S) (v.get S) j := by
  intro os
  induction os with
  | nil => intro v _ ht; exact ⟨v, rfl, ht, fun _ => rfl⟩
  | cons o os ih =>
    intro v ho ht
    obtain ⟨v1, e1, h1, g1⟩ := step_ok hS v o (ho o (by simp)) ht
    obtain ⟨v2, e2, h2, g2⟩ := ih v1 (fun o' h' => ho o' (by simp [h'])) h1
    refine ⟨v2, by simp [runM, e1, e2], h2, ?_⟩
    intro j
    rw [g2 j, List.foldl_cons, show v1.get S = specStep S (v.get S) o from funext g1]

/-- C30. Setting element `i` of any object makes it read as the value; every other element that exists
keeps its value, elements created by the growth are zero. -/
theorem C30_write_read (S : Nat) (hS : S = 1 ∨ S = 2 ∨ S = 3) (v : MBV) (i x : Nat) (hx : x < 2 ^ S) :
    ∃ v', v.set S i x = some v' ∧ v'.get S i = some x ∧
      (∀ j y, j ≠ i → v.get S j = some y → v'.get S j = some y) ∧
      (∀ j, j ≠ i → v.get S j = none → v'.get S j = some 0 ∨ v'.get S j = none) ∧
      ∀ j, j ≤ i → (v'.get S j).isSome := by
  obtain ⟨v', e, h1, h2, h3⟩ := set_spec hS v i x hx
  have hp := per_pos hS
  have hi : i < per S * (i / per S + 1) := Nat.lt_mul_div_succ i hp
  have hmax : per S * max v.words.length (i / per S + 1) = max (per S * v.words.length) (per S * (i / per S + 1)) :=
      Nat.mul_max_mul_left _ _ _ |>.symm
  refine ⟨v', e, ?_, ?_, ?_, ?_⟩
  · rw [get_spec hS, h2, hmax, if_pos (by omega), h3, if_pos rfl]
  · intro j y hj
    rw [get_spec hS, get_spec hS, h2, hmax, h3, if_neg hj]
    intro h
    split at h
    · rw [if_pos (by omega)]; exact h
    · exact absurd h (by simp)
  · intro j hj
    rw [get_spec hS, get_spec hS, h2, hmax, h3, if_neg hj]
    intro h
    split at h
    · exact absurd h (by simp)
    · rename_i hn
      split
      · left
        congr 1
        unfold elem
        rw [List.getD_eq_getElem?_getD, List.getElem?_eq_none, Option.getD_none, fv_zero]
        rw [Nat.le_div_iff_mul_le hp, Nat.mul_comm]; omega
      · right; rfl
  · intro j hj
    rw [get_spec hS, h2, hmax, if_pos (by omega)]; rfl

example : ((empty 3).set 3 40 5).bind (fun v => (v.set 3 41 7).map (fun w => (w.get 3 40, w.get 3 41, w.get 3 3, w.get 3 42))) =
    some (some 5, some 7, some 0, none) := by decide +kernel

/-- C30. Histories of set, resize and build from the empty object. -/
theorem C30_histories (S : Nat) (hS : S = 1 ∨ S = 2 ∨ S = 3) (os : List Op) (ho : ∀ o ∈ os, o.Ok S) :
    ∃ v, runM S (empty S) os = some v ∧ ∀ j, v.get S j = specRun S os j := by
  obtain ⟨v, e, _, g⟩ := run_ok hS os (empty S) ho (by simp [empty])
  refine ⟨v, e, ?_⟩
  intro j
  rw [g j]
  have : (empty S).get S = fun _ => none := by
    funext j
    rw [get_spec hS]; simp [empty]
  rw [this]; rfl

example : ∀ o ∈ [Op.set 70 2, .set 3 1, .build, .resize 40, .set 3 3], o.Ok 2 := by
  intro o ho
  simp only [List.mem_cons, List.not_mem_nil, or_false] at ho
  rcases ho with rfl | rfl | rfl | rfl | rfl <;> simp [Op.Ok]

/-- C31. Rank after build on any object: the number of earlier indices with the same value. -/
theorem C31_rank (S : Nat) (hS : S = 1 ∨ S = 2 ∨ S = 3) (v : MBV) (ht : v.tips.length = 2 ^ S) :
    ∃ v', v.build S = some v' ∧ (∀ j, v'.get S j = v.get S j) ∧
      ∀ i x, v.get S i = some x → x ≠ 0 →
        v'.rank S i = some ((List.range i).countP (fun j => v.get S j == some x)) := by
  obtain ⟨v', e, h1, h2, h3⟩ := build_spec hS v ht
  refine ⟨v', e, ?_, ?_⟩
  · intro j; rw [get_spec hS, get_spec hS, h1]
  · intro i x hx hne
    rw [get_spec hS] at hx
    split at hx
    · rename_i hi
      injection hx with hx
      subst hx
      rw [h3 i hi hne]
      congr 1
      apply List.countP_congr
      intro j hj
      rw [List.mem_range] at hj
      rw [get_spec hS, if_pos (by omega)]
      simp
    · exact absurd hx (by simp)

example : ∃ v v', runM 3 (empty 3) [.set 70 2, .set 3 2, .set 69 7] = some v ∧ v.build 3 = some v' ∧ v'.rank 3 70 = some 1 := by
  have h : (runM 3 (empty 3) [.set 70 2, .set 3 2, .set 69 7]).map (fun v => (v.tips.length, v.get 3 70,
      (List.range 70).countP (fun j => v.get 3 j == some 2))) = some (8, some 2, 1) := by decide +kernel
  obtain ⟨v, e, h⟩ := Option.map_eq_some_iff.1 h
  simp only [Prod.mk.injEq] at h
  obtain ⟨v', hb, _, hr⟩ := C31_rank 3 (by decide) v h.1
  exact ⟨v, v', e, hb, by rw [hr 70 2 h.2.1 (by decide), h.2.2]⟩

/-- C31, for the objects a program can make. -/
theorem C31_histories (S : Nat) (hS : S = 1 ∨ S = 2 ∨ S = 3) (os : List Op) (ho : ∀ o ∈ os, o.Ok S) :
    ∃ v, runM S (empty S) (os ++ [.build]) = some v ∧
      ∀ i x, specRun S os i = some x → x ≠ 0 →
        v.rank S i = some ((List.range i).countP (fun j => specRun S os j == some x)) := by
  obtain ⟨v, e, ht, g⟩ := run_ok hS os (empty S) ho (by simp [empty])
  obtain ⟨v', e', _, h⟩ := C31_rank S hS v ht
  have happ : ∀ (os : List Op) (a : MBV), runM S a os = some v → runM S a (os ++ [.build]) = v.build S := by
    intro os
    induction os with
    | nil =>
      intro a h
      cases h
      show (v.build S).bind (fun b => some b) = _
      simp
    | cons o os ih =>
      intro a h
      simp only [runM, Option.bind_eq_bind, Option.bind_eq_some_iff] at h
      obtain ⟨b, hb, h⟩ := h
      simp only [List.cons_append, runM, Option.bind_eq_bind, hb, Option.bind_some]
      exact ih b h
  refine ⟨v', by rw [happ os _ e, e'], ?_⟩
  have hg : v.get S = specRun S os := by
    funext j
    rw [g j]
    have : (empty S).get S = fun _ => none := by
      funext j
      rw [get_spec hS]; simp [empty]
    rw [this]; rfl
  rw [← hg]
  exact h

example : specRun 3 [Op.set 70 2, .set 3 2, .set 69 7] 70 = some 2 ∧
    (runM 3 (empty 3) ([Op.set 70 2, .set 3 2, .set 69 7] ++ [.build])).bind (fun v => v.rank 3 70) = some 1 := by decide +kernel

/-- C31. On an element holding zero `rank` indexes before the first directory (no directory for zero). -/
theorem C31_zero (S : Nat) (v : MBV) (i : Nat) (h : v.get S i = some 0) : v.rank S i = none := by
  unfold MBV.rank
  rw [h]; rfl

example : ((empty 1).set 1 3 1).bind (fun v => v.get 1 2) = some 0 := by decide +kernel

/-! ### C65: serialisation -/

theorem readMany_spec {α : Type} (rd : Stream → Option (α × Stream)) (wrt : α → Stream) :
    ∀ (l : List α) (s : Stream), (∀ a ∈ l, ∀ s, rd (wrt a ++ s) = some (a, s)) →
      readMany rd l.length ((l.map wrt).flatten ++ s) = some (l, s) := by
  intro l
  induction l with
  | nil => intro s _; rfl
  | cons a l ih =>
    intro s h
    rw [List.length_cons, readMany, List.map_cons, List.flatten_cons, List.append_assoc, h a (by simp)]
    simp only [Option.bind_eq_bind, Option.bind_some]
    rw [ih s (fun b hb => h b (by simp [hb]))]
    rfl

theorem readTip_writeTip (S : Nat) (pad : Byte) (t : Tip) (h1 : t.1 < 256 ^ 8) (h2 : t.2.length = tipSize S)
    (h3 : ∀ x ∈ t.2, x < 256) (s : Stream) : readTip S (writeTip S pad t ++ s) = some (t, s) := by
  unfold readTip writeTip
  rw [List.append_assoc, readVal_writeVal 8 _ h1]
  simp only [Option.bind_eq_bind, Option.bind_some, Option.pure_def]
  have hl : (List.map (BitVec.ofNat 8) t.2 ++ List.replicate (padLen S) pad).length = tipSize S + padLen S := by
    simp [h2]
  rw [if_pos (by rw [List.length_append, hl]; omega)]
  rw [List.drop_append_of_le_length (by omega), List.drop_of_length_le (by omega), List.nil_append]
  rw [List.append_assoc, List.take_append_of_le_length (by simp [h2]), List.take_of_length_le (by simp [h2]), List.map_map]
  have : List.map (BitVec.toNat ∘ BitVec.ofNat 8) t.2 = t.2 := by
    conv => rhs; rw [← List.map_id t.2]
    apply List.map_congr_left
    intro x hx
    simp only [Function.comp, BitVec.toNat_ofNat, id]
    have := h3 x hx
    omega
  rw [this]

theorem run_shape {S : Nat} (hS : S = 1 ∨ S = 2 ∨ S = 3) (B : Nat) : ∀ (os : List Op) (v v' : MBV), TipsOk S B v.tips →
    v.words.length ≤ B → (∀ o ∈ os, o.Ok S) → (∀ o ∈ os, match o with | .set i _ => i < B | .resize i => i < B | .build => True) →
    runM S v os = some v' → TipsOk S B v'.tips ∧ v'.words.length ≤ B := by
  intro os
  induction os with
  | nil => intro v v' h hw _ _ e; cases e; exact ⟨h, hw⟩
  | cons o os ih =>
    intro v v' h hw ho hb e
    simp only [runM, Option.bind_eq_bind, Option.bind_eq_some_iff] at e
    obtain ⟨v1, e1, e⟩ := e
    have hb1 := hb o (by simp)
    have hdiv : ∀ i, i < B → i / per S + 1 ≤ B := fun i hi => by
      have := Nat.div_le_self i (per S); omega
    have key : TipsOk S B v1.tips ∧ v1.words.length ≤ B := by
      cases o with
      | set i x =>
        obtain ⟨w, ew, h1, h2, _⟩ := set_spec hS v i x (ho (.set i x) (by simp))
        have : w = v1 := by
          have : some w = some v1 := by rw [← ew, ← e1]; rfl
          injection this
        subst this
        have := hdiv i hb1
        exact ⟨by rw [h1]; exact h, by omega⟩
      | resize i =>
        cases e1
        have := hdiv i hb1
        refine ⟨h, ?_⟩
        have hl : (v.resize S i).words.length = i / per S + 1 := Verif.vresize_length _ _ _
        omega
      | build =>
        obtain ⟨h1, h2⟩ := build_shape hS v v1 B hw h e1
        exact ⟨h1, by rw [h2]; exact hw⟩
    exact ih v1 v' key.1 key.2 (fun o' h' => ho o' (by simp [h'])) (fun o' h' => hb o' (by simp [h'])) e

/-- C65. Any object made by a history with indices below 2^57 is restored by `Read` from the bytes of
`Write` (whatever the padding bytes), consuming exactly those bytes, `size_in_bytes()` many. -/
theorem C65_roundtrip (S : Nat) (hS : S = 1 ∨ S = 2 ∨ S = 3) (os : List Op) (ho : ∀ o ∈ os, o.Ok S)
    (hb : ∀ o ∈ os, match o with | .set i _ => i < 2 ^ 57 | .resize i => i < 2 ^ 57 | .build => True)
    (v : MBV) (e : runM S (empty S) os = some v) (pad : Byte) (st : Stream) :
    read S (v.write S pad ++ st) = some (v, st) ∧ (v.write S pad).length = v.sizeInBytes S := by
  have h0 : TipsOk S (2 ^ 57) (empty S).tips := by
    refine ⟨by simp [empty], ?_⟩
    intro ts hts
    have : ts = [] := List.eq_of_mem_replicate hts
    subst this
    exact ⟨Nat.zero_le _, by simp⟩
  obtain ⟨ht, hw⟩ := run_shape hS (2 ^ 57) os (empty S) v h0 (Nat.zero_le _) ho hb e
  constructor
  · unfold read MBV.write
    rw [List.append_assoc, readVec_writeVec 8 _ ?_ ?_]
    · simp only [Option.bind_eq_bind, Option.bind_some, Option.pure_def]
      have hm := readMany_spec (readTips S) (writeTips S pad) v.tips st ?_
      · rw [ht.1] at hm
        rw [hm]
        simp only [Option.bind_some, List.map_map]
        congr 1
        congr 1
        have : List.map (BitVec.ofNat 64 ∘ BitVec.toNat) v.words = v.words := by
          conv => rhs; rw [← List.map_id v.words]
          apply List.map_congr_left
          intro x _
          simp
        rw [this]
      · intro ts hts s
        obtain ⟨h1, h2⟩ := ht.2 ts hts
        unfold readTips writeTips
        rw [List.append_assoc, readVal_writeVal 8 _ (Nat.lt_of_le_of_lt h1 (by decide))]
        simp only [Option.bind_eq_bind, Option.bind_some]
        apply readMany_spec
        intro t htt s
        obtain ⟨h3, h4, h5⟩ := h2 t htt
        exact readTip_writeTip S pad t (Nat.lt_of_le_of_lt h3 (by decide)) h4 h5 s
    · intro x hx
      rw [List.mem_map] at hx
      obtain ⟨y, _, rfl⟩ := hx
      have := y.isLt
      omega
    · rw [List.length_map]
      exact Nat.lt_of_le_of_lt hw (by decide)
  · unfold MBV.write MBV.sizeInBytes
    rw [List.length_append, C47_size_vec, List.length_flatten, List.map_map, sizeVec, List.length_map]
    congr 2
    apply List.map_congr_left
    intro ts hts
    obtain ⟨h1, h2⟩ := ht.2 ts hts
    simp only [Function.comp, writeTips]
    rw [List.length_append, writeVal_length, List.length_flatten, List.map_map]
    have : List.map (List.length ∘ writeTip S pad) ts = List.map (fun _ => 8 + tipSize S + padLen S) ts := by
      apply List.map_congr_left
      intro t htt
      simp only [Function.comp, writeTip, List.length_append, writeVal_length, List.length_map, List.length_replicate,
        (h2 t htt).2.1]
      omega
    rw [this]
    have hsum : ∀ (l : List Tip) (c : Nat), (l.map (fun _ => c)).sum = c * l.length := by
      intro l c
      induction l with
      | nil => rfl
      | cons a l ih => rw [List.map_cons, List.sum_cons, ih, List.length_cons, Nat.mul_add]; omega
    rw [hsum]; omega

example : (runM 3 (empty 3) [.set 70 2, .set 3 2, .build]).bind (fun v => (read 3 (v.write 3 7#8 ++ [1#8])).map
    (fun r => (decide (r.1 = v), r.2))) = some (true, [1#8]) := by decide +kernel

end Verif.MBit

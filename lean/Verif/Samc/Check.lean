/-
The searches `y_check_` and `y_check_legacy_` give the first place where the pattern of indices fits.
-/
import Verif.Samc.Model
import Verif.BV.Props
import Verif.Bits.Zeros
import Mathlib.Data.List.Perm.Subperm

namespace Verif.Samc
open Verif.BV Verif.Serial
open Verif.Bits (W64)

/-- The pattern of `ids` above its minimum `mn` fits at `y`. -/
def FitsAt (f : Nat → Bool) (ids : List Nat) (mn y : Nat) : Prop := ∀ id ∈ ids, f (y + (id - mn)) = true

theorem fieldBits_eq {e : BVec} (h0 : 0 < e.size) (hw : e.words.length = wordSize e.size) (i : Nat) :
    fieldBits e i = some (e.words.getD i 0#64) := by
  unfold fieldBits
  have : wordSize e.size = (e.size - 1) / 64 + 1 := by unfold wordSize; rw [if_neg (by omega)]
  split
  · rw [List.getElem?_eq_getElem (by omega), List.getD_eq_getElem?_getD, List.getElem?_eq_getElem (by omega)]; rfl
  · rw [List.getD_eq_getElem?_getD, List.getElem?_eq_none (by omega)]; rfl

theorem window_eq {e : BVec} (h0 : 0 < e.size) (hw : e.words.length = wordSize e.size) (i off : Nat) :
    ∃ m, window e i off = some m ∧ ∀ b, b < 64 → m.getLsbD b = bitAt e.words (64 * i + b + off) := by
  unfold window
  split
  · rename_i h
    refine ⟨_, fieldBits_eq h0 hw _, ?_⟩
    intro b hb
    unfold bitAt
    rw [show (64 * i + b + off) / 64 = off / 64 + i by omega, show (64 * i + b + off) % 64 = b by omega]
  · rename_i h
    simp only [fieldBits_eq h0 hw, Option.bind_eq_bind, Option.bind_some, Option.pure_def]
    refine ⟨_, rfl, ?_⟩
    intro b hb
    rw [BitVec.getLsbD_or, BitVec.getLsbD_ushiftRight, BitVec.getLsbD_shiftLeft]
    unfold bitAt
    by_cases hc : b + off % 64 < 64
    · rw [show (64 * i + b + off) / 64 = off / 64 + i by omega, show (64 * i + b + off) % 64 = off % 64 + b by omega]
      have : b < 64 - off % 64 := by omega
      simp [this]
    · rw [show (64 * i + b + off) / 64 = off / 64 + i + 1 by omega, show (64 * i + b + off) % 64 = b - (64 - off % 64) by omega]
      have h1 : ¬ b < 64 - off % 64 := by omega
      rw [BitVec.getLsbD_of_ge _ (off % 64 + b) (by omega)]
      simp [h1, hb]

theorem cands_spec {e : BVec} (h0 : 0 < e.size) (hw : e.words.length = wordSize e.size) (heads i : Nat) : ∀ (ids : List Nat) (c : W64),
    ∃ r, cands e heads i ids c = some r ∧
      ∀ b, b < 64 → (r.getLsbD b = true ↔ c.getLsbD b = true ∧ FitsAt (bitAt e.words) ids heads (64 * i + b))
  | [], c => ⟨c, rfl, fun b _ => by simp [FitsAt]⟩
  | id :: ids, c => by
    obtain ⟨m, em, hm⟩ := window_eq h0 hw i (id - heads)
    simp only [cands, em, Option.bind_eq_bind, Option.bind_some]
    split
    · rename_i hz
      refine ⟨_, rfl, ?_⟩
      intro b hb
      have h1 : (c &&& m).getLsbD b = false := by rw [hz]; simp
      rw [BitVec.getLsbD_and, hm b hb] at h1
      simp only [FitsAt, List.mem_cons, forall_eq_or_imp]
      constructor
      · intro h; simp at h
      · rintro ⟨h2, h3, _⟩
        rw [h2, h3] at h1
        simp at h1
    · obtain ⟨r, er, hr⟩ := cands_spec h0 hw heads i ids (c &&& m)
      refine ⟨r, er, ?_⟩
      intro b hb
      rw [hr b hb, BitVec.getLsbD_and, hm b hb]
      simp only [FitsAt, List.mem_cons, forall_eq_or_imp, Bool.and_eq_true]
      tauto

theorem yLoop_spec {e : BVec} (h0 : 0 < e.size) (hw : e.words.length = wordSize e.size) (ids : List Nat) (y : Nat)
    (hy : FitsAt (bitAt e.words) ids (lmin ids) y) (hmin : ∀ z, z < y → ¬ FitsAt (bitAt e.words) ids (lmin ids) z) :
    ∀ n i, y < 64 * (i + n) → 64 * i ≤ y → yLoop e ids n i = some ((y : Int) - lmin ids)
  | 0, i, h1, h2 => by omega
  | n + 1, i, h1, h2 => by
    obtain ⟨c, ec, hc⟩ := cands_spec h0 hw (lmin ids) i ids (BitVec.allOnes 64)
    have hc' : ∀ b, b < 64 → (c.getLsbD b = true ↔ FitsAt (bitAt e.words) ids (lmin ids) (64 * i + b)) := by
      intro b hb
      rw [hc b hb, BitVec.getLsbD_allOnes]
      simp [hb]
    simp only [yLoop, ec, Option.bind_eq_bind, Option.bind_some]
    by_cases hlt : y < 64 * i + 64
    · have hb : c.getLsbD (y - 64 * i) = true := by
        rw [hc' _ (by omega), show 64 * i + (y - 64 * i) = y by omega]
        exact hy
      have hne : c ≠ 0#64 := by
        rintro rfl
        simp at hb
      have hctz : Bits.ctz64 c = y - 64 * i := by
        refine Bits.isCtz_unique c _ _ (Bits.ctz64_isCtz c) ⟨by omega, ?_, fun _ => hb⟩
        intro j hj
        have := hmin (64 * i + j) (by omega)
        rw [← hc' j (by omega)] at this
        simpa using this
      rw [if_pos hne, hctz]
      simp only [Option.pure_def, Option.some.injEq]
      omega
    · have hz : c = 0#64 := by
        refine BitVec.eq_of_getLsbD_eq fun b hb => ?_
        have := hmin (64 * i + b) (by omega)
        rw [← hc' b hb] at this
        simpa using this
      rw [if_neg (by simp [hz])]
      exact yLoop_spec h0 hw ids y hy hmin n (i + 1) (by omega) (by omega)

theorem get_bitAt {v : BVec} {i : Nat} (hi : i < 64 * v.words.length) : v.get i = some (bitAt v.words i) := by
  have hk : i / 64 < v.words.length := by omega
  have ho : i % 64 < 64 := Nat.mod_lt _ (by decide)
  unfold BVec.get
  simp only [List.getElem?_eq_getElem hk, Option.bind_eq_bind, Option.bind_some, Bits.offsetMask, ho, if_true, Option.pure_def, bitAt]
  rw [and_offset_ne _ _ ho, List.getD_eq_getElem?_getD, List.getElem?_eq_getElem hk]
  rfl

theorem legacyFits_spec {e : BVec} (hw : e.words.length = wordSize e.size) (heads y : Nat) : ∀ (ids : List Nat) (found : Bool),
    (∀ id ∈ ids, y + (id - heads) < e.size) →
    ∃ r, legacyFits e heads y ids found = some r ∧ (r = true ↔ found = true ∧ FitsAt (bitAt e.words) ids heads y)
  | [], found, _ => ⟨found, rfl, by simp [FitsAt]⟩
  | id :: ids, found, h => by
    have hlt := h id (List.mem_cons_self ..)
    have h1 : e.get (y + (id - heads)) = some (bitAt e.words (y + (id - heads))) := by
      exact get_bitAt (by have := wordSize_le e.size; omega)
    obtain ⟨r, er, hr⟩ := legacyFits_spec hw heads y ids (found && bitAt e.words (y + (id - heads))) (fun i hi => h i (List.mem_cons_of_mem _ hi))
    refine ⟨r, ?_, ?_⟩
    · simp only [legacyFits, h1, Option.bind_eq_bind, Option.bind_some, er]
    · rw [hr]
      simp only [FitsAt, List.mem_cons, forall_eq_or_imp, Bool.and_eq_true]
      tauto

theorem legacyLoop_spec {e : BVec} (hw : e.words.length = wordSize e.size) (ids : List Nat) (y : Nat)
    (hy : FitsAt (bitAt e.words) ids (lmin ids) y) (hmin : ∀ z, z < y → ¬ FitsAt (bitAt e.words) ids (lmin ids) z)
    (hin : ∀ id ∈ ids, y + (id - lmin ids) < e.size) :
    ∀ n z, z ≤ y → y < z + n → legacyLoop e ids n z = some ((y : Int) - lmin ids)
  | 0, z, h1, h2 => by omega
  | n + 1, z, h1, h2 => by
    obtain ⟨r, er, hr⟩ := legacyFits_spec hw (lmin ids) z ids true (fun id hid => by have := hin id hid; omega)
    simp only [legacyLoop, er, Option.bind_eq_bind, Option.bind_some]
    by_cases hz : z = y
    · subst hz
      rw [if_pos (hr.2 ⟨rfl, hy⟩)]
      rfl
    · rw [if_neg (fun hc => hmin z (by omega) (hr.1 hc).2)]
      exact legacyLoop_spec hw ids y hy hmin hin n (z + 1) (by omega) (by omega)

theorem lmin_le : ∀ (l : List Nat) (x : Nat), x ∈ l → lmin l ≤ x
  | [y], x, h => by simp at h; subst h; exact Nat.le_refl _
  | y :: z :: l, x, h => by
    rw [lmin]
    · rcases List.mem_cons.1 h with rfl | h
      · omega
      · have := lmin_le (z :: l) x h
        omega
    · simp

theorem lmin_mem : ∀ (l : List Nat), l ≠ [] → lmin l ∈ l
  | [y], _ => by simp [lmin]
  | y :: z :: l, _ => by
    have := lmin_mem (z :: l) (by simp)
    rw [show lmin (y :: z :: l) = min y (lmin (z :: l)) from rfl]
    rcases Nat.le_total y (lmin (z :: l)) with h | h
    · rw [Nat.min_eq_left h]; simp
    · rw [Nat.min_eq_right h]; exact List.mem_cons_of_mem _ this

theorem le_lmax : ∀ (l : List Nat) (x : Nat), x ∈ l → x ≤ lmax l
  | y :: l, x, h => by
    rw [lmax]
    rcases List.mem_cons.1 h with rfl | h
    · omega
    · have := le_lmax l x h
      omega

theorem lmax_mem : ∀ (l : List Nat), l ≠ [] → lmax l ∈ l
  | [y], _ => by simp [lmax]
  | y :: z :: l, _ => by
    have := lmax_mem (z :: l) (by simp)
    rw [lmax]
    rcases Nat.le_total y (lmax (z :: l)) with h | h
    · rw [Nat.max_eq_right h]; exact List.mem_cons_of_mem _ this
    · rw [Nat.max_eq_left h]; simp

/-- The place found: the pattern fits there, it is at most the height so far, and at most the number of pairs of an index and a used place. -/
theorem yFront_spec (legacy : Bool) {e : BVec} (hw : e.words.length = wordSize e.size) (ids : List Nat) (hne : ids ≠ []) (mh : Nat) (U : List Nat)
    (hsz : mh + (1 + lmax ids - lmin ids) ≤ e.size) (hfree : ∀ x, mh ≤ x → x < e.size → bitAt e.words x = true)
    (hU : ∀ x, x < e.size → bitAt e.words x = false → x ∈ U) :
    ∃ y : Nat, y ≤ mh ∧ y ≤ ids.length * U.length ∧ FitsAt (bitAt e.words) ids (lmin ids) y ∧ yFront legacy ids e = some ((y : Int) - lmin ids) := by
  have hmm : ∀ id ∈ ids, lmin ids ≤ id ∧ id ≤ lmax ids := fun id h => ⟨lmin_le _ _ h, le_lmax _ _ h⟩
  have hmx := hmm _ (lmax_mem ids hne)
  have h0 : FitsAt (bitAt e.words) ids (lmin ids) mh := by
    intro id hid
    have := hmm id hid
    exact hfree _ (by omega) (by omega)
  classical
  have hex : ∃ y, FitsAt (bitAt e.words) ids (lmin ids) y := ⟨mh, h0⟩
  obtain ⟨y, hy, hmin⟩ : ∃ y, FitsAt (bitAt e.words) ids (lmin ids) y ∧ ∀ z, z < y → ¬ FitsAt (bitAt e.words) ids (lmin ids) z :=
    ⟨Nat.find hex, Nat.find_spec hex, fun z hz => Nat.find_min hex hz⟩
  have hle : y ≤ mh := by
    by_contra hc
    exact hmin mh (by omega) h0
  refine ⟨y, hle, ?_, hy, ?_⟩
  · have hsub : List.range y ⊆ ids.flatMap (fun id => U.map (fun u => u - (id - lmin ids))) := by
      intro z hz
      rw [List.mem_range] at hz
      have := hmin z hz
      simp only [FitsAt, not_forall] at this
      obtain ⟨id, hid, hb⟩ := this
      have hb' : bitAt e.words (z + (id - lmin ids)) = false := by simpa using hb
      have := hmm id hid
      rw [List.mem_flatMap]
      exact ⟨id, hid, List.mem_map.2 ⟨_, hU _ (by omega) hb', by omega⟩⟩
    have := (List.nodup_range.subperm hsub).length_le
    rw [List.length_range, List.length_flatMap] at this
    simpa using this
  · unfold yFront
    cases legacy with
    | true =>
      rw [if_pos rfl]
      exact legacyLoop_spec hw ids y hy hmin (fun id hid => by have := hmm id hid; omega) _ 0 (by omega) (by omega)
    | false =>
      rw [if_neg (by simp)]
      unfold yCheck
      have hf := hmm (ids.headD 0) (by cases ids with | nil => exact absurd rfl hne | cons a l => simp)
      have hl := hmm (ids.getLastD 0) (by
        cases ids with
        | nil => exact absurd rfl hne
        | cons a l => rw [List.getLastD_cons]; exact List.getLastD_mem_cons)
      exact yLoop_spec (by omega) hw ids y hy hmin _ 0 (by omega) (by omega)

end Verif.Samc

/-
Property theorems C123, first part: loading into a `MultipleVector` that has a layout already. `set_element_sizes` appends to the table
(MultipleVector.hpp:238-246), so every load makes the table longer.
-/
import Verif.Mult.Props

namespace Verif.Mult
open Verif.Serial

theorem load_into {w v : MVec} {s r : Stream} (h : (new []).load s = some (v, r)) : w.load s = some (⟨w.table ++ v.table, v.bytes⟩, r) := by
  unfold MVec.load at h ⊢
  cases e1 : readVec 1 s with
  | none => simp [e1] at h
  | some p =>
    obtain ⟨bs, s1⟩ := p
    cases e2 : readVec 8 s1 with
    | none => simp [e1, e2] at h
    | some q =>
      obtain ⟨sz, s2⟩ := q
      simp only [e1, e2, Option.bind_eq_bind, Option.bind_some, Option.pure_def, Option.some.injEq, Prod.mk.injEq] at h ⊢
      obtain ⟨rfl, rfl⟩ := h
      simp [MVec.setElementSizes, new, entries]

/-- Loads one after the other into the same object. -/
def loadAll : MVec → List MVec → Option MVec
  | w, [] => some w
  | w, v :: vs => do
    let (w, _) ← w.load v.store
    loadAll w vs

/-- What a load gives in any object: the new fields stand behind the old ones. -/
theorem C123_fields_partial (sizes : List Nat) (hne : sizes ≠ []) (hs : ∀ s ∈ sizes, 1 ≤ s ∧ s ≤ 8) (os : List Op)
    (ho : opsOk sizes [] os) (v : MVec) (e : runOps (new sizes) os = some v) (hb : v.bytes.length < 2 ^ 64)
    (hk : sizes.length < 2 ^ 64) (st : Stream) (w : MVec) :
    ∃ u, w.load (v.store ++ st) = some (u, st) ∧ u.size = v.size ∧ ∀ i f, u.get i (w.table.length + f) = v.get i f := by
  have h := load_into (w := w) (C29_roundtrip sizes hne hs os ho v e hb hk st).1
  obtain ⟨v1, e1, r⟩ := run_rep ⟨hne, hs⟩ os (new sizes) [] (new_rep sizes) ho
  cases e.symm.trans e1
  have ht : v.table ≠ [] := by
    rw [r.wf.table]
    cases sizes with
    | nil => exact absurd rfl hne
    | cons a l => simp [entries]
  have hbs : (⟨w.table ++ v.table, v.bytes⟩ : MVec).blockSize = v.blockSize := by
    simp only [MVec.blockSize]
    rw [List.getLast?_append]
    cases hl : v.table.getLast? with
    | none => exact absurd (List.getLast?_eq_none_iff.1 hl) ht
    | some x => rfl
  refine ⟨_, h, ?_, fun i f => ?_⟩
  · simp only [MVec.size, hbs]
  · simp only [MVec.get, hbs]
    rw [List.getElem?_append_right (Nat.le_add_right _ _), Nat.add_sub_cancel_left]

example := fun w => C123_fields_partial [1, 2] (by decide) (by decide) [.pushBack [44, 7]] (by simp [opsOk, opOk]) _ rfl (by decide) (by decide) [9#8] w

/-- A vector of the layout `sizes`, small enough for a file. -/
def Stored (sizes : List Nat) (v : MVec) : Prop := ∃ os, opsOk sizes [] os ∧ runOps (new sizes) os = some v ∧ v.bytes.length < 2 ^ 64

theorem loadAll_spec (sizes : List Nat) (hne : sizes ≠ []) (hs : ∀ s ∈ sizes, 1 ≤ s ∧ s ≤ 8) (hk : sizes.length < 2 ^ 64) :
    ∀ (vs : List MVec) (w : MVec) (T : List (Nat × Nat)), (∀ v ∈ vs, Stored sizes v) → w.table = entries sizes 0 ++ T →
      w.blockSize = some sizes.sum → ∃ u T', loadAll w vs = some u ∧ u.table = entries sizes 0 ++ T' ∧ u.blockSize = some sizes.sum ∧
        u.bytes = (vs.getLast?.getD w).bytes := by
  intro vs
  induction vs with
  | nil => intro w T _ hT hb; exact ⟨w, T, rfl, hT, hb, rfl⟩
  | cons v vs ih =>
    intro w T hvs hT hb
    obtain ⟨os, ho, e, hlen⟩ := hvs v List.mem_cons_self
    have h := load_into (w := w) (C29_roundtrip sizes hne hs os ho v e hlen hk []).1
    rw [List.append_nil] at h
    obtain ⟨v1, e1, r⟩ := run_rep ⟨hne, hs⟩ os (new sizes) [] (new_rep sizes) ho
    cases e.symm.trans e1
    have ht : v.table ≠ [] := by
      rw [r.wf.table]
      cases sizes with
      | nil => exact absurd rfl hne
      | cons a l => simp [entries]
    have hbs : (⟨w.table ++ v.table, v.bytes⟩ : MVec).blockSize = some sizes.sum := by
      rw [← blockSize_spec sizes hne v.bytes, ← r.wf.table]
      simp only [MVec.blockSize]
      rw [List.getLast?_append]
      cases hl : v.table.getLast? with
      | none => exact absurd (List.getLast?_eq_none_iff.1 hl) ht
      | some x => rfl
    obtain ⟨u, T', eu, h1, h2, h3⟩ := ih ⟨w.table ++ v.table, v.bytes⟩ (T ++ v.table) (fun x hx => hvs x (List.mem_cons_of_mem _ hx))
      (by simp only [hT, List.append_assoc]) hbs
    refine ⟨u, T', ?_, h1, h2, ?_⟩
    · simp only [loadAll, h, Option.bind_eq_bind, Option.bind_some]
      exact eu
    · rw [h3, List.getLast?_cons]
      cases vs.getLast? with
      | none => rfl
      | some x => rfl

/-- Any number of loads into an object of the same layout: it reads like the vector loaded last. -/
theorem C123_same_layout_partial (sizes : List Nat) (hne : sizes ≠ []) (hs : ∀ s ∈ sizes, 1 ≤ s ∧ s ≤ 8) (hk : sizes.length < 2 ^ 64)
    (w : MVec) (hw : Stored sizes w) (vs : List MVec) (hvs : ∀ v ∈ vs, Stored sizes v) (v : MVec) (hv : Stored sizes v) :
    ∃ u, loadAll w (vs ++ [v]) = some u ∧ u.size = v.size ∧ ∀ i f, f < sizes.length → u.get i f = v.get i f := by
  obtain ⟨os, ho, e, hlen⟩ := hw
  obtain ⟨w1, e1, r⟩ := run_rep ⟨hne, hs⟩ os (new sizes) [] (new_rep sizes) ho
  cases e.symm.trans e1
  obtain ⟨osv, hov, ev, hlenv⟩ := hv
  obtain ⟨v1, e2, rv⟩ := run_rep ⟨hne, hs⟩ osv (new sizes) [] (new_rep sizes) hov
  cases ev.symm.trans e2
  obtain ⟨u, T', eu, h1, h2, h3⟩ := loadAll_spec sizes hne hs hk (vs ++ [v]) w [] (by
    intro x hx
    rcases List.mem_append.1 hx with hx | hx
    · exact hvs x hx
    · rw [List.mem_singleton.1 hx]; exact ⟨osv, hov, ev, hlenv⟩) (by rw [r.wf.table, List.append_nil]) (by
      have := blockSize_spec sizes hne w.bytes
      rw [← r.wf.table] at this
      exact this)
  have hbv : v.blockSize = some sizes.sum := by
    have := blockSize_spec sizes hne v.bytes
    rw [← rv.wf.table] at this
    exact this
  rw [List.getLast?_append, List.getLast?_singleton] at h3
  change u.bytes = v.bytes at h3
  refine ⟨u, eu, ?_, fun i f hf => ?_⟩
  · simp only [MVec.size, h2, hbv, h3]
  · simp only [MVec.get, h2, hbv, h3, h1, rv.wf.table]
    rw [List.getElem?_append_left (by rw [entries_length]; exact hf)]

example := fun w hw vs hvs v hv => C123_same_layout_partial [1, 2] (by decide) (by decide) (by decide) w hw vs hvs v hv
example : ∃ v, Stored [1, 2] v ∧ v.size = some 1 := ⟨_, ⟨[.pushBack [44, 7]], by simp [opsOk, opOk], rfl, by decide⟩, by decide⟩

theorem load_store (u : MVec) (hb : u.bytes.length < 2 ^ 64) (hk : u.table.length < 2 ^ 64) (hs : ∀ x ∈ u.table.map (·.2), x < 2 ^ 64) :
    (new []).load u.store = some (⟨entries (u.table.map (·.2)) 0, u.bytes⟩, []) := by
  unfold MVec.load MVec.store
  rw [readVec_writeVec 1]
  · simp only [Option.bind_eq_bind, Option.bind_some]
    have h := readVec_writeVec 8 (u.table.map (·.2)) (by intro s h; simpa using hs s h) (by simpa using hk) []
    rw [List.append_nil] at h
    rw [h]
    have : (BitVec.ofNat 8 ∘ BitVec.toNat : Byte → Byte) = id := by funext b; simp
    simp only [Option.bind_some, List.map_map, this, List.map_id, Option.pure_def, MVec.setElementSizes, new, entries, List.nil_append]
  · intro x hx
    obtain ⟨b, _, rfl⟩ := List.mem_map.1 hx
    exact b.isLt
  · simpa using hb

/-- C123 is false: a vector loaded into an object of its own layout, then stored and loaded into a new object, has half of its records. -/
theorem C123_store_again_refuted (sizes : List Nat) (hne : sizes ≠ []) (hs : ∀ s ∈ sizes, 1 ≤ s ∧ s ≤ 8) (hk : sizes.length < 2 ^ 63)
    (w v : MVec) (hw : Stored sizes w) (hv : Stored sizes v) (n : Nat) (hn : v.size = some n) :
    ∃ u t, w.load v.store = some (u, []) ∧ (new []).load u.store = some (t, []) ∧ u.size = some n ∧ t.size = some (n / 2) := by
  obtain ⟨os, ho, e, hlen⟩ := hw
  obtain ⟨w1, e1, r⟩ := run_rep ⟨hne, hs⟩ os (new sizes) [] (new_rep sizes) ho
  cases e.symm.trans e1
  obtain ⟨osv, hov, ev, hlenv⟩ := hv
  obtain ⟨v1, e2, rv⟩ := run_rep ⟨hne, hs⟩ osv (new sizes) [] (new_rep sizes) hov
  cases ev.symm.trans e2
  have hL : Layout sizes := ⟨hne, hs⟩
  obtain ⟨u, hu, hus, -⟩ := C123_fields_partial sizes hne hs osv hov v ev hlenv (by omega) [] w
  have h := load_into (w := w) (C29_roundtrip sizes hne hs osv hov v ev hlenv (by omega) []).1
  rw [List.append_nil] at h hu
  cases h.symm.trans hu
  have hst := load_store ⟨w.table ++ v.table, v.bytes⟩ hlenv (by
      rw [r.wf.table, rv.wf.table, List.length_append, entries_length]; omega) (by
      intro x hx
      rw [r.wf.table, rv.wf.table, List.map_append, entries_snd] at hx
      have := hs x (by simpa using hx)
      omega)
  have hsz : (w.table ++ v.table).map (·.2) = sizes ++ sizes := by rw [r.wf.table, rv.wf.table, List.map_append, entries_snd]
  rw [hsz] at hst
  refine ⟨_, _, hu, hst, hus.trans hn, ?_⟩
  have hpos := hL.pos
  have hvn := rv.wf.sz hL
  rw [hn] at hvn
  have hvn := Option.some.inj hvn
  have hlen := rv.wf.len
  rw [← hvn] at hlen
  simp only [MVec.size]
  rw [blockSize_spec (sizes ++ sizes) (by simp [hne]), List.sum_append]
  simp only [Option.bind_eq_bind, Option.bind_some, Option.pure_def]
  rw [if_neg (by omega), hlen, Option.some.injEq, ← Nat.mul_two, Nat.mul_comm sizes.sum 2, Nat.mul_comm n, Nat.mul_comm 2, Nat.mul_div_mul_left _ _ hpos]

/-- Seven records become three. -/
example := fun w hw v hv => C123_store_again_refuted [1, 2] (by decide) (by decide) (by decide) w v hw hv 7
example : ∃ v, Stored [1, 2] v ∧ v.size = some 7 := ⟨_, ⟨[.resizeVals 7 [5, 300]], by simp [opsOk, opOk], rfl, by decide⟩, by decide⟩

end Verif.Mult

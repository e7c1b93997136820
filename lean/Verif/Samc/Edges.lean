/-
The edges of a node, as enumerated by `for_each_edge`.
-/
import Verif.Samc.Model
import Mathlib.Tactic.Tauto

namespace Verif.Samc
open Verif.BV Verif.Serial

/-- The string with its terminator. -/
def ext (k : Key) : List Byte := k ++ [0]

theorem charAt_eq {k : Key} {d : Nat} (h : d ≤ k.length) : charAt k d = (ext k)[d]? := by
  unfold charAt ext
  split
  · rename_i h
    rw [h, List.getElem?_append_right (Nat.le_refl _)]
    simp
  · rw [List.getElem?_append_left (by omega)]

theorem ext_get {k : Key} {d : Nat} (h : d ≤ k.length) : ∃ c, (ext k)[d]? = some c :=
  ⟨_, List.getElem?_eq_getElem (by simp [ext]; omega)⟩

theorem ext_ne_zero {k : Key} {d : Nat} {c : Byte} (hc : (ext k)[d]? = some c) (h0 : c ≠ 0) : k[d]? = some c := by
  unfold ext at hc
  rw [List.getElem?_append] at hc
  split at hc
  · exact hc
  · rename_i h
    exfalso
    rw [List.getElem?_eq_some_iff] at hc
    obtain ⟨hl, e⟩ := hc
    simp only [List.length_singleton] at hl
    simp only [show d - k.length = 0 by omega, List.getElem_cons_zero] at e
    exact h0 e.symm

/-- What the edges must satisfy. -/
structure EdgesOk (d : Nat) (ks : List Key) (es : List (Byte × List Key)) : Prop where
  sound : ∀ e ∈ es, ∃ k ∈ ks, (ext k)[d]? = some e.1
  nodes : ∀ e ∈ es, e.1 ≠ 0 → e.2 ≠ [] ∧ ∀ k ∈ e.2, k ∈ ks ∧ (ext k)[d]? = some e.1
  complete : ∀ k ∈ ks, ∀ c, (ext k)[d]? = some c → ∃ e ∈ es, e.1 = c ∧ (c ≠ 0 → k ∈ e.2)
  len : es.length ≤ ks.length
  sum : (es.map (fun e => e.2.length)).sum ≤ ks.length

theorem runs_spec (d : Nat) : ∀ (ks : List Key) (c : Byte) (cur : List Key), cur ≠ [] → (∀ k ∈ cur, (ext k)[d]? = some c) →
    (∀ k ∈ ks, d ≤ k.length) → ∃ es, runs d c cur ks = some es ∧ EdgesOk d (cur ++ ks) es
  | [], c, cur, hne, hcur, _ => by
    refine ⟨_, rfl, ?_, ?_, ?_, ?_, ?_⟩
    · intro e he
      obtain ⟨k, hk⟩ := List.exists_mem_of_ne_nil cur hne
      rw [List.mem_singleton.1 he]
      exact ⟨k, by simpa using hk, hcur k hk⟩
    · intro e he _
      rw [List.mem_singleton.1 he]
      exact ⟨hne, fun k hk => ⟨by simpa using hk, hcur k hk⟩⟩
    · intro k hk c' hc'
      rw [List.append_nil] at hk
      rw [hcur k hk] at hc'
      exact ⟨_, List.mem_singleton.2 rfl, Option.some.inj hc', fun _ => hk⟩
    · have := List.length_pos_iff.2 hne
      simp; omega
    · simp
  | k :: ks, c, cur, hne, hcur, hd => by
    have hdk := hd k (List.mem_cons_self ..)
    obtain ⟨c', hc'⟩ := ext_get hdk
    simp only [runs, charAt_eq hdk, hc', Option.bind_eq_bind, Option.bind_some]
    split
    · rename_i heq
      subst heq
      obtain ⟨es, e, ok⟩ := runs_spec d ks c' (cur ++ [k]) (by simp) (by
        intro k' hk'
        rcases List.mem_append.1 hk' with h | h
        · exact hcur k' h
        · rw [List.mem_singleton.1 h]; exact hc') (fun k' hk' => hd k' (List.mem_cons_of_mem _ hk'))
      rw [List.append_assoc] at ok
      exact ⟨es, e, ok⟩
    · rename_i hneq
      obtain ⟨es, e, ok⟩ := runs_spec d ks c' [k] (by simp) (by
        intro k' hk'
        rw [List.mem_singleton.1 hk']; exact hc') (fun k' hk' => hd k' (List.mem_cons_of_mem _ hk'))
      refine ⟨(c, cur) :: es, by rw [e]; rfl, ?_, ?_, ?_, ?_, ?_⟩
      · intro e he
        rcases List.mem_cons.1 he with rfl | he
        · obtain ⟨k', hk'⟩ := List.exists_mem_of_ne_nil cur hne
          exact ⟨k', List.mem_append_left _ hk', hcur k' hk'⟩
        · obtain ⟨k', hk', h2⟩ := ok.sound e he
          exact ⟨k', List.mem_append_right _ hk', h2⟩
      · intro e he h0
        rcases List.mem_cons.1 he with rfl | he
        · exact ⟨hne, fun k' hk' => ⟨List.mem_append_left _ hk', hcur k' hk'⟩⟩
        · obtain ⟨h1, h2⟩ := ok.nodes e he h0
          exact ⟨h1, fun k' hk' => ⟨List.mem_append_right _ (h2 k' hk').1, (h2 k' hk').2⟩⟩
      · intro k' hk' c'' hc''
        rcases List.mem_append.1 hk' with h | h
        · rw [hcur k' h] at hc''
          exact ⟨_, List.mem_cons_self .., Option.some.inj hc'', fun _ => h⟩
        · obtain ⟨e, he, h2⟩ := ok.complete k' h c'' hc''
          exact ⟨e, List.mem_cons_of_mem _ he, h2⟩
      · have := ok.len
        have := List.length_pos_iff.2 hne
        simp only [List.length_append, List.length_cons, List.length_nil] at *
        omega
      · have := ok.sum
        simp only [List.length_append, List.length_cons, List.length_nil, List.map_cons, List.sum_cons] at *
        omega

theorem runs0_spec (d : Nat) (ks : List Key) (hd : ∀ k ∈ ks, d ≤ k.length) : ∃ es, runs0 d ks = some es ∧ EdgesOk d ks es := by
  cases ks with
  | nil => exact ⟨[], rfl, by simp, by simp, by simp, by simp, by simp⟩
  | cons k ks =>
    have hdk := hd k (List.mem_cons_self ..)
    obtain ⟨c, hc⟩ := ext_get hdk
    simp only [runs0, charAt_eq hdk, hc, Option.bind_eq_bind, Option.bind_some]
    exact runs_spec d ks c [k] (by simp) (by
      intro k' hk'
      rw [List.mem_singleton.1 hk']; exact hc) (fun k' hk' => hd k' (List.mem_cons_of_mem _ hk'))

theorem edges_spec (d : Nat) (ks : List Key) (hne : ks ≠ []) (hd : ∀ k ∈ ks, d ≤ k.length) : ∃ es, edges d ks = some es ∧ EdgesOk d ks es := by
  cases ks with
  | nil => exact absurd rfl hne
  | cons k ks =>
    simp only [edges]
    split
    · rename_i hk
      have hsub : ∀ k' ∈ ks.dropWhile (fun k => k.length = d), k' ∈ ks := fun k' h => (List.dropWhile_sublist _).subset h
      obtain ⟨es, e, ok⟩ := runs0_spec d (ks.dropWhile (fun k => k.length = d)) (fun k' h => hd k' (List.mem_cons_of_mem _ (hsub k' h)))
      have hll := (List.dropWhile_sublist (l := ks) (fun k : Key => decide (k.length = d))).length_le
      have hterm : ∀ k' : Key, k'.length = d → (ext k')[d]? = some 0 := by
        intro k' h
        rw [← h]
        simp [ext]
      refine ⟨(0, []) :: es, by simp [e], ?_, ?_, ?_, ?_, ?_⟩
      · intro e he
        rcases List.mem_cons.1 he with rfl | he
        · exact ⟨k, List.mem_cons_self .., hterm k hk⟩
        · obtain ⟨k', hk', h2⟩ := ok.sound e he
          exact ⟨k', List.mem_cons_of_mem _ (hsub k' hk'), h2⟩
      · intro e he h0
        rcases List.mem_cons.1 he with rfl | he
        · exact absurd rfl h0
        · obtain ⟨h1, h2⟩ := ok.nodes e he h0
          exact ⟨h1, fun k' hk' => ⟨List.mem_cons_of_mem _ (hsub k' (h2 k' hk').1), (h2 k' hk').2⟩⟩
      · intro k' hk' c hc
        by_cases hl : k'.length = d
        · rw [hterm k' hl] at hc
          exact ⟨_, List.mem_cons_self .., Option.some.inj hc, fun h => absurd (Option.some.inj hc).symm h⟩
        · have hin : k' ∈ ks.dropWhile (fun k => k.length = d) := by
            rcases List.mem_cons.1 hk' with rfl | hk'
            · exact absurd hk hl
            · rw [← List.takeWhile_append_dropWhile (p := fun k : Key => decide (k.length = d)) (l := ks)] at hk'
              rcases List.mem_append.1 hk' with h | h
              · exact absurd (by simpa using List.all_eq_true.1 List.all_takeWhile k' h) hl
              · exact h
          obtain ⟨e, he, h2⟩ := ok.complete k' hin c hc
          exact ⟨e, List.mem_cons_of_mem _ he, h2⟩
      · have := ok.len
        simp only [List.length_cons]
        omega
      · have := ok.sum
        simp only [List.map_cons, List.sum_cons, List.length_cons, List.length_nil]
        omega
    · exact runs0_spec d (k :: ks) hd

/-- What the edges of a level must satisfy: `q` is the queue, `h0` the start of the block. -/
theorem collect_spec (d h0 : Nat) : ∀ (q : List (Nat × List Key)), (∀ p ∈ q, p.2 ≠ [] ∧ h0 ≤ p.1 ∧ p.1 < 2 ^ 64 ∧ ∀ k ∈ p.2, d ≤ k.length) →
    ∃ es, collect d h0 q = some es ∧
      (∀ e ∈ es, ∃ p ∈ q, p.1 = h0 + e.2.1 ∧ ∃ k ∈ p.2, (ext k)[d]? = some e.1) ∧
      (∀ e ∈ es, e.1 ≠ 0 → ∃ p ∈ q, p.1 = h0 + e.2.1 ∧ e.2.2 ≠ [] ∧ ∀ k ∈ e.2.2, k ∈ p.2 ∧ (ext k)[d]? = some e.1) ∧
      (∀ p ∈ q, ∀ k ∈ p.2, ∀ c, (ext k)[d]? = some c → ∃ e ∈ es, e.1 = c ∧ p.1 = h0 + e.2.1 ∧ (c ≠ 0 → k ∈ e.2.2)) ∧
      es.length ≤ (q.map (fun p => p.2.length)).sum ∧ (es.map (fun e => e.2.2.length)).sum ≤ (q.map (fun p => p.2.length)).sum
  | [], _ => ⟨[], rfl, by simp, by simp, by simp, by simp, by simp⟩
  | (x, ks) :: q, h => by
    obtain ⟨a1, a2, a3, a4⟩ := h (x, ks) (List.mem_cons_self ..)
    obtain ⟨es, e, ok⟩ := edges_spec d ks a1 a4
    obtain ⟨rest, e', b1, b2, b3, b4, b5⟩ := collect_spec d h0 q (fun p hp => h p (List.mem_cons_of_mem _ hp))
    have hx : h0 + (x + 2 ^ 64 - h0) % 2 ^ 64 = x := by
      simp only at a2 a3
      rw [show x + 2 ^ 64 - h0 = x - h0 + 2 ^ 64 by omega, Nat.add_mod_right, Nat.mod_eq_of_lt (by omega)]
      omega
    refine ⟨es.map (fun e => (e.1, (x + 2 ^ 64 - h0) % 2 ^ 64, e.2)) ++ rest, ?_, ?_, ?_, ?_, ?_, ?_⟩
    · simp only [collect, e, e', Option.bind_eq_bind, Option.bind_some, Option.pure_def]
    · intro g hg
      rcases List.mem_append.1 hg with hg | hg
      · obtain ⟨g, hg', rfl⟩ := List.mem_map.1 hg
        exact ⟨_, List.mem_cons_self .., hx.symm, ok.sound g hg'⟩
      · obtain ⟨p, hp, h2⟩ := b1 g hg
        exact ⟨p, List.mem_cons_of_mem _ hp, h2⟩
    · intro g hg h0'
      rcases List.mem_append.1 hg with hg | hg
      · obtain ⟨g, hg', rfl⟩ := List.mem_map.1 hg
        exact ⟨_, List.mem_cons_self .., hx.symm, ok.nodes g hg' h0'⟩
      · obtain ⟨p, hp, h2⟩ := b2 g hg h0'
        exact ⟨p, List.mem_cons_of_mem _ hp, h2⟩
    · intro p hp k hk c hc
      rcases List.mem_cons.1 hp with rfl | hp
      · obtain ⟨g, hg, h2, h3⟩ := ok.complete k hk c hc
        exact ⟨_, List.mem_append_left _ (List.mem_map.2 ⟨g, hg, rfl⟩), h2, hx.symm, h3⟩
      · obtain ⟨g, hg, h2⟩ := b3 p hp k hk c hc
        exact ⟨g, List.mem_append_right _ hg, h2⟩
    · have := ok.len
      simp only [List.length_append, List.length_map, List.map_cons, List.sum_cons]
      omega
    · have := ok.sum
      simp only [List.map_append, List.map_map, List.sum_append, List.map_cons, List.sum_cons]
      have : (es.map ((fun e : Byte × Nat × List Key => e.2.2.length) ∘ fun e => (e.1, (x + 2 ^ 64 - h0) % 2 ^ 64, e.2))).sum =
        (es.map (fun e => e.2.length)).sum := rfl
      omega

end Verif.Samc

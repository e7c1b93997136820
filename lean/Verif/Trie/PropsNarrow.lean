/-
Property C57: exactly when the `SizeType` of a trie is wide enough.
-/
import Verif.Trie.Narrow

namespace Verif.Trie

variable {α : Type}

theorem words_le {w : Nat} {t : Trie α} (hI : Inv w t) {L : List (List Byte)} (hL : L.Nodup) (hm : ∀ ws ∈ L, (walk t 0 ws).isSome = true) :
    L.length ≤ t.container.length := by
  have hn : (L.map (fun ws => (walk t 0 ws).getD 0)).Nodup := by
    unfold List.Nodup
    rw [List.pairwise_map]
    refine hL.imp_of_mem (fun {a b} ha hb hab e => hab ?_)
    obtain ⟨x, hx⟩ := Option.isSome_iff_exists.1 (hm a ha)
    obtain ⟨y, hy⟩ := Option.isSome_iff_exists.1 (hm b hb)
    rw [hx, hy] at e
    simp only [Option.getD_some] at e
    subst e
    exact walk_inj hI _ a b x (Nat.le_refl _) hx hy
  have := (List.subperm_of_subset hn (l₂ := List.range t.container.length) (by
    intro v hv
    obtain ⟨ws, hws, e⟩ := List.mem_map.1 hv
    obtain ⟨x, hx⟩ := Option.isSome_iff_exists.1 (hm ws hws)
    rw [hx] at e
    simp only [Option.getD_some] at e
    subst e
    exact List.mem_range.2 (walk_lt hI ws 0 x hI.pos hx))).length_le
  rwa [List.length_map, List.length_range] at this

theorem empty_or (w : Nat) (ops : List (List Byte × α)) (L : List (List Byte)) (hL : L.Nodup) (hm : ∀ ws, ws ∈ L ↔ IsPrefix ops ws) :
    ∃ t, (Trie.empty w : Trie α).run w ops = some t ∧
      (L.length ≤ 2 ^ w → Inv w t ∧ t.storage.length < 2 ^ w ∧
        (∀ key, look w t (key ++ [0#8]) = (lastItem ops key).or (look w (Trie.empty w) (key ++ [0#8]))) ∧
        (∀ ws, look w t ws = (lastWord ops ws).or (look w (Trie.empty w) ws)) ∧
        ∀ vs, (walk t 0 vs).isSome = true ↔ ((walk (Trie.empty w : Trie α) 0 vs).isSome = true ∨ ∃ o ∈ ops, vs <+: o.1 ++ [0#8])) ∧
      (2 ^ w < L.length → ∃ o ∈ ops, t.traverse o.1 = some none) := by
  obtain ⟨t, e, h⟩ := run_or w ops (Trie.empty w) (inv_empty w) (has_empty w) (by simp only [Trie.empty, List.length_cons, List.length_nil]; exact Nat.pow_pos (by omega))
  refine ⟨t, e, ?_⟩
  rcases h with ⟨hI, hs, hl, hk, hkw, hw⟩ | ⟨hW, ⟨o, ho, z⟩, D, d1, d2, d3⟩
  · refine ⟨fun _ => ⟨hI, hs, hk, hkw, hw⟩, fun hlt => ?_⟩
    have := words_le hI hL (fun ws hws => (hw ws).2 ((hm ws).1 hws |>.imp (fun h => (walk_empty w ws).2 h) id))
    omega
  · refine ⟨fun hle => ?_, fun _ => ⟨o, ho, z.traverse hW⟩⟩
    have := (List.subperm_of_subset d1 (l₂ := L) (fun vs hvs => (hm vs).2 ((d3 vs hvs).imp (fun h => (walk_empty w vs).1 h) id))).length_le
    omega

/-- C57: with a `SizeType` of `w` bits a trie is right, for keys and queries without NUL, as long as there are at most `2 ^ w` different prefixes of the
keys with their terminator (`L` lists them), the empty one included, however many inserts there are. -/
theorem C57_narrow_fits (w : Nat) (hw : w ≤ 64) (ops : List (List Byte × α)) (hz : ∀ o ∈ ops, 0#8 ∉ o.1) (L : List (List Byte)) (hL : L.Nodup)
    (hm : ∀ ws, ws ∈ L ↔ IsPrefix ops ws) (hsz : L.length ≤ 2 ^ w) :
    ∃ t, (Trie.empty w : Trie α).run w ops = some t ∧ ∀ key, 0#8 ∉ key → t.traverse key = some (lastItem ops key) := by
  obtain ⟨t, e, h, _⟩ := empty_or w ops L hL hm
  obtain ⟨hI, hs, hk, _, hws⟩ := h hsz
  exact ⟨t, e, narrow_traverse hw hz hI hs hk hws⟩

example := C57_narrow_fits 2 (by decide) [([98#8, 99#8], 5), ([98#8, 99#8], 7)] (by decide) [[], [98#8], [98#8, 99#8], [98#8, 99#8, 0#8]] (by decide) (by
    intro ws
    simp [IsPrefix, List.prefix_cons_iff]
    grind) (by decide)

/-- C57: the same for the default `SizeType` and any bytes. -/
theorem C57_fits (ops : List (List Byte × α)) (L : List (List Byte)) (hL : L.Nodup) (hm : ∀ ws, ws ∈ L ↔ IsPrefix ops ws) (hsz : L.length ≤ 2 ^ 64) :
    ∃ t, (Trie.empty 64 : Trie α).run 64 ops = some t ∧ ∀ key, t.traverse key = some (lastItem ops key) := by
  obtain ⟨t, e, h, _⟩ := empty_or 64 ops L hL hm
  obtain ⟨hI, hs, hk, _, hws⟩ := h hsz
  refine ⟨t, e, fun key => ?_⟩
  rw [traverse_spec t hI, hk, look_empty, Option.or_none]

example := C57_fits [([98#8, 99#8], 5), ([98#8, 99#8], 7)] [[], [98#8], [98#8, 99#8], [98#8, 99#8, 0#8]] (by decide) (by
    intro ws
    simp [IsPrefix, List.prefix_cons_iff]
    grind) (by decide)

/-- C57: with more prefixes the inserts still return, but one of the inserted keys is not found any more. -/
theorem C57_narrow_fails (w : Nat) (ops : List (List Byte × α)) (L : List (List Byte)) (hL : L.Nodup)
    (hm : ∀ ws, ws ∈ L ↔ IsPrefix ops ws) (hsz : 2 ^ w < L.length) :
    ∃ t, (Trie.empty w : Trie α).run w ops = some t ∧ ∃ o ∈ ops, t.traverse o.1 = some none := by
  obtain ⟨t, e, _, h⟩ := empty_or w ops L hL hm
  exact ⟨t, e, h hsz⟩

example : ∃ t, (Trie.empty 1 : Trie Nat).run 1 [([98#8, 99#8], 5)] = some t ∧ ∃ o ∈ [(([98#8, 99#8] : List Byte), 5)], t.traverse o.1 = some none :=
  C57_narrow_fails 1 [([98#8, 99#8], 5)] [[], [98#8], [98#8, 99#8], [98#8, 99#8, 0#8]] (by decide) (by
    intro ws
    simp [IsPrefix, List.prefix_cons_iff]
    grind) (by decide)

/-- C58: `dfs` for every `SizeType`, under the exact condition. -/
theorem C58_dfs_fits (w : Nat) (ops : List (List Byte × α)) (P : List (List Byte)) (hP : P.Nodup) (hm : ∀ ws, ws ∈ P ↔ IsPrefix ops ws)
    (hsz : P.length ≤ 2 ^ w) :
    ∃ t, (Trie.empty w : Trie α).run w ops = some t ∧ ∀ n, t.container.length ≤ n → ∃ L out, t.dfs n 0 0 = some out ∧ Visits t L out ∧
      L.Pairwise LexLt ∧ (∀ ws, ws ∈ L ↔ IsPrefix ops ws) ∧ (out.map Prod.fst).Perm (List.range t.container.length) := by
  obtain ⟨t, e, h, _⟩ := empty_or w ops P hP hm
  obtain ⟨hI, _, _, _, hws⟩ := h hsz
  refine ⟨t, e, fun n hn => ?_⟩
  obtain ⟨L, ⟨h1, h2⟩, eL⟩ := dfs_spec hI n 0 0 hI.pos (by omega)
  simp only [Nat.zero_add] at eL
  obtain ⟨v1, v2⟩ := visits_of hI L LexLt LexLt_irrefl h1 h2
  refine ⟨L, _, eL, v1, h1, fun ws => ?_, v2⟩
  rw [h2, hws, walk_empty]
  rfl

example := C58_dfs_fits 2 [([98#8, 99#8], 5), ([98#8, 99#8], 7)] [[], [98#8], [98#8, 99#8], [98#8, 99#8, 0#8]] (by decide) (by
    intro ws
    simp [IsPrefix, List.prefix_cons_iff]
    grind) (by decide)

/-- C58: `bfs` for every `SizeType`, under the exact condition. -/
theorem C58_bfs_fits (w : Nat) (ops : List (List Byte × α)) (P : List (List Byte)) (hP : P.Nodup) (hm : ∀ ws, ws ∈ P ↔ IsPrefix ops ws)
    (hsz : P.length ≤ 2 ^ w) :
    ∃ t, (Trie.empty w : Trie α).run w ops = some t ∧ ∀ n, t.container.length ≤ n → ∃ L out, t.bfs n [(0, 0)] [] = some out ∧ Visits t L out ∧
      L.Pairwise ShortLt ∧ (∀ ws, ws ∈ L ↔ IsPrefix ops ws) ∧ (out.map Prod.fst).Perm (List.range t.container.length) := by
  obtain ⟨t, e, h, _⟩ := empty_or w ops P hP hm
  obtain ⟨hI, _, _, _, hws⟩ := h hsz
  refine ⟨t, e, fun n hn => ?_⟩
  obtain ⟨L, eL, h1, h2⟩ := bfs_spec hI n [] [[]] ⟨by simp, by simp [walk], by simp, by simp, by simp⟩ (by simpa using hn)
  obtain ⟨v1, v2⟩ := visits_of hI L ShortLt ShortLt_irrefl h1 h2
  refine ⟨L, _, eL, v1, h1, fun ws => ?_, v2⟩
  rw [h2, hws, walk_empty]
  rfl

example := C58_bfs_fits 2 [([98#8, 99#8], 5), ([98#8, 99#8], 7)] [[], [98#8], [98#8, 99#8], [98#8, 99#8, 0#8]] (by decide) (by
    intro ws
    simp [IsPrefix, List.prefix_cons_iff]
    grind) (by decide)

/-- C66: `size` for every `SizeType`, under the exact condition. -/
theorem C66_fits (w : Nat) (ops : List (List Byte × α)) (P : List (List Byte)) (hP : P.Nodup) (hm : ∀ ws, ws ∈ P ↔ IsPrefix ops ws)
    (hsz : P.length ≤ 2 ^ w) : ∃ t, (Trie.empty w : Trie α).run w ops = some t ∧ t.container.length = P.length := by
  obtain ⟨t, e, h⟩ := C58_dfs_fits w ops P hP hm hsz
  obtain ⟨L, out, _, hv, hp, hm', hperm⟩ := h t.container.length (Nat.le_refl _)
  refine ⟨t, e, ?_⟩
  have hd : L.Nodup := hp.imp (fun {a b} h (e : a = b) => LexLt_irrefl b (by rw [e] at h; exact h))
  have h1 := hperm.length_eq
  rw [List.length_map, List.length_range, hv.1] at h1
  have h2 := (List.subperm_of_subset hd (fun x hx => (hm x).2 ((hm' x).1 hx))).length_le
  have h3 := (List.subperm_of_subset hP (fun x hx => (hm' x).2 ((hm x).1 hx))).length_le
  omega

/-- Two bits are enough for the prefixes (empty), b, bc, bc0; a further key needs a fifth node and gets lost, while the old one stays. -/
example : ((Trie.empty 2 : Trie Nat).run 2 [([98#8, 99#8], 5), ([98#8, 99#8], 7)]).bind (fun t => t.traverse [98#8, 99#8]) = some (some 7) ∧
    ((Trie.empty 2 : Trie Nat).run 2 [([98#8, 99#8], 5), ([98#8], 7)]).bind (fun t => t.traverse [98#8]) = some none ∧
    ((Trie.empty 2 : Trie Nat).run 2 [([98#8, 99#8], 5), ([98#8], 7)]).bind (fun t => t.traverse [98#8, 99#8]) = some (some 5) := by decide +kernel

/-- The list of prefixes of the first history. -/
example (ws : List Byte) : ws ∈ [[], [98#8], [98#8, 99#8], [98#8, 99#8, 0#8]] ↔ IsPrefix [([98#8, 99#8], 5), ([98#8, 99#8], 7)] ws := by
  simp [IsPrefix, List.prefix_cons_iff]
  grind

end Verif.Trie

/-
The dictionary: leaves are numbered in the order of their places.
-/
import Verif.Samc.Search
import Verif.Succ.Props
import Mathlib.Data.List.Dedup

namespace Verif.Samc
open Verif.BV Verif.Serial

theorem allOk_snoc : ∀ (os : List Op) (l : List Bool) (o : Op), specAllOk l os → specOk (specRun l os) o → specAllOk l (os ++ [o])
  | [], l, o, _, h => ⟨h, trivial⟩
  | a :: os, l, o, h, ho => ⟨h.1, allOk_snoc os (specStep l a) o h.2 ho⟩

theorem runOps_snoc : ∀ (os : List Op) (v v' : BVec) (o : Op), runOps v os = some v' → runOps v (os ++ [o]) = runStep v' o
  | [], v, v', o, h => by
    simp only [runOps, Option.some.injEq] at h
    subst h
    simp only [List.nil_append, runOps, Option.bind_eq_bind]
    cases runStep v o <;> rfl
  | a :: os, v, v', o, h => by
    simp only [runOps, List.cons_append, Option.bind_eq_bind] at h ⊢
    cases e : runStep v a with
    | none => rw [e] at h; simp at h
    | some w =>
      rw [e] at h
      exact runOps_snoc os w v' o h

theorem Built.step {v : BVec} {l : List Bool} (h : Built v l) (o : Op) (ho : specOk l o) : ∃ v', runStep v o = some v' ∧ Built v' (specStep l o) := by
  obtain ⟨v', e, _⟩ := rep_step v l o h.rep ho
  refine ⟨v', e, ?_⟩
  obtain ⟨i, os, v0, h1, h2, h3, rfl⟩ := h
  refine ⟨i, os ++ [o], v0, allOk_snoc os _ o h1 ho, h2, by rw [runOps_snoc os v0 v o h3, e], ?_⟩
  simp [specRun]

theorem leafLoop_spec (st : List Byte) : ∀ (n i : Nat) (v : BVec) (l : List Bool), i + n = st.length → Built v l → l.length = st.length →
    ∃ v' l', leafLoop st n i v = some v' ∧ Built v' l' ∧ l'.length = st.length ∧
      ∀ j, l'[j]? = if i ≤ j ∧ st[j]? = some 0 then some true else l[j]?
  | 0, i, v, l, hi, hb, hl => by
    refine ⟨v, l, rfl, hb, hl, ?_⟩
    intro j
    rw [if_neg]
    rintro ⟨h1, h2⟩
    rw [List.getElem?_eq_none (by omega)] at h2
    simp at h2
  | n + 1, i, v, l, hi, hb, hl => by
    have hlt : i < st.length := by omega
    simp only [leafLoop, List.getElem?_eq_getElem hlt, Option.bind_eq_bind, Option.bind_some]
    split
    · rename_i h0
      obtain ⟨v1, e1, b1⟩ := Built.step hb (.set i true) (by simpa [specOk, hl] using hlt)
      simp only [specStep] at b1
      obtain ⟨v', l', e, b, h1, h2⟩ := leafLoop_spec st n (i + 1) v1 (l.set i true) (by omega) b1 (by simpa using hl)
      have e1' : v.set i true = some v1 := e1
      refine ⟨v', l', by rw [e1']; exact e, b, h1, ?_⟩
      intro j
      rw [h2 j]
      rcases Nat.lt_trichotomy j i with hj | rfl | hj
      · rw [if_neg (by omega), if_neg (by omega), List.getElem?_set_ne (by omega)]
      · rw [if_neg (by omega), if_pos ⟨Nat.le_refl _, by rw [List.getElem?_eq_getElem hlt, h0]⟩, List.getElem?_set_self (by omega)]
      · rw [List.getElem?_set_ne (by omega)]
        by_cases hs : st[j]? = some 0
        · rw [if_pos ⟨by omega, hs⟩, if_pos ⟨by omega, hs⟩]
        · rw [if_neg (fun h => hs h.2), if_neg (fun h => hs h.2)]
    · rename_i h0
      obtain ⟨v', l', e, b, h1, h2⟩ := leafLoop_spec st n (i + 1) v l (by omega) hb hl
      refine ⟨v', l', e, b, h1, ?_⟩
      intro j
      rw [h2 j]
      by_cases hj : j = i
      · subst hj
        rw [if_neg (by omega), if_neg]
        rintro ⟨_, hc⟩
        rw [List.getElem?_eq_getElem hlt] at hc
        exact h0 (Option.some.inj hc)
      · by_cases hs : st[j]? = some 0 ∧ i ≤ j
        · rw [if_pos ⟨by omega, hs.1⟩, if_pos ⟨by omega, hs.1⟩]
        · rw [if_neg (fun h => hs ⟨h.2, by omega⟩), if_neg (fun h => hs ⟨h.2, h.1⟩)]

/-- Counting the ones below a position when the ones are the elements of a list. -/
theorem count_take (l : List Bool) (P : List Nat) (hP : P.Nodup) (h : ∀ j, l[j]? = some true ↔ j ∈ P) (i : Nat) :
    (l.take i).count true = P.countP (fun p => p < i) := by
  have hstep : ∀ (P : List Nat) i, P.countP (fun p => p < i + 1) = P.countP (fun p => p < i) + P.count i := by
    intro P i
    induction P with
    | nil => rfl
    | cons p P ih =>
      simp only [List.countP_cons, List.count_cons, decide_eq_true_eq, beq_iff_eq]
      rw [ih]
      rcases Nat.lt_trichotomy p i with h | h | h
      · rw [if_pos (by omega), if_pos h, if_neg (by omega)]; omega
      · rw [if_pos (by omega), if_neg (by omega), if_pos h]; omega
      · rw [if_neg (by omega), if_neg (by omega), if_neg (by omega)]; omega
  induction i with
  | zero => simp
  | succ i ih =>
    rw [List.take_add_one, List.count_append, ih, hstep]
    congr 1
    by_cases hi : i ∈ P
    · rw [(h i).2 hi, List.count_eq_one_of_mem hP hi]
      rfl
    · rw [List.count_eq_zero_of_not_mem hi]
      have := (h i).not.2 hi
      cases hl : l[i]? with
      | none => rfl
      | some b =>
        cases b with
        | false => rfl
        | true => exact absurd hl this

/-- What the dictionary represents: `P` are the places of the leaves. -/
structure DOk (keys : List Key) (t : Dict) (v : BVec) (l : List Bool) (P : List Nat) : Prop where
  built : Built v l
  leaves : Succ.build true v = some t.leaves
  len : l.length = t.samc.storage.length
  nodup : P.Nodup
  ones : ∀ j, l[j]? = some true ↔ j ∈ P
  perm : P = keys.dedup.map (fun k => pos t.samc.code (ext k))

theorem setup_spec {W : Nat} {keys : List Key} {L : Nat} {s : Samc} (h : Ok W keys L s) (hL : ∀ k ∈ keys, k.length ≤ L) (hnul : ∀ k ∈ keys, 0 ∉ k) :
    ∃ t v l P, setupLeaves s = some t ∧ t.samc = s ∧ DOk keys t v l P := by
  have hpos : 0 < s.storage.length := by
    have := mono_le h.mono 1 (L + 2) (by omega) (by omega)
    rw [h.start.2] at this
    rw [h.slen]
    omega
  have hb0 : Built (BV.ofSize s.storage.length) (List.replicate s.storage.length false) := ⟨.size _, [], _, trivial, rfl, rfl, rfl⟩
  obtain ⟨v, l, e, b, h1, h2⟩ := leafLoop_spec s.storage (s.storage.length - 1) 1 _ _ (by omega) hb0 (by simp)
  obtain ⟨sb, es, _⟩ := Succ.build_spec true v b.rep.words
  refine ⟨⟨s, sb⟩, v, l, _, ?_, rfl, b, es, h1, ?_, ?_, rfl⟩
  · simp only [setupLeaves, e, es, Option.bind_eq_bind, Option.bind_some, Option.pure_def]
  · refine List.Nodup.map_on ?_ (List.nodup_dedup keys)
    intro k hk k' hk' he
    rw [List.mem_dedup] at hk hk'
    have hp : Path keys (ext k) := ⟨k, hk, List.prefix_rfl⟩
    have hp' : Path keys (ext k') := ⟨k', hk', List.prefix_rfl⟩
    have i1 := h.inside _ hp
    have i2 := h.inside _ hp'
    simp only at he
    rw [← he] at i2
    have hd := depth_unique h.mono (hp.length_le hL) (hp'.length_le hL) i1.1 i1.2 i2.1 i2.2
    have := h.inj _ _ hp hp' hd he
    exact (List.append_inj' this rfl).1
  · intro j
    rw [h2 j, List.mem_map]
    constructor
    · intro hj
      split at hj
      · rename_i hc
        rcases h.only j 0 (by omega) hc.2 with hz | ⟨w, hw, rfl⟩
        · exact absurd hz (by decide)
        · exact ⟨w, List.mem_dedup.2 ((path_ext hnul).1 hw), rfl⟩
      · rw [List.getElem?_replicate] at hj
        split at hj <;> simp at hj
    · rintro ⟨k, hk, rfl⟩
      rw [List.mem_dedup] at hk
      have hp : Path keys (k ++ [0]) := ⟨k, hk, List.prefix_rfl⟩
      have i1 := (h.inside _ hp).1
      have := mono_le h.mono 1 (k ++ [0]).length (by simp) (by have := hp.length_le hL; omega)
      rw [h.start.2] at this
      rw [if_pos ⟨by simp only [ext]; omega, h.label k 0 hp⟩]

theorem takeWhile_len (p : Nat → Bool) : ∀ (l : List Nat) (n : Nat), n < l.length → (∀ i, i < n → p (l.getD i 0) = true) → p (l.getD n 0) = false →
    (l.takeWhile p).length = n
  | x :: l, 0, _, _, h => by
    have : p x = false := by simpa using h
    rw [List.takeWhile_cons_of_neg (by simp [this])]
    rfl
  | x :: l, n + 1, hl, h1, h2 => by
    have : p x = true := by simpa using h1 0 (by omega)
    rw [List.takeWhile_cons_of_pos this, List.length_cons, takeWhile_len p l n (by simpa using hl) (fun i hi => by simpa using h1 (i + 1) (by omega))
      (by simpa using h2)]

theorem upperBound_eq {W : Nat} {keys : List Key} {L : Nat} {s : Samc} (h : Ok W keys L s) (hL : ∀ k ∈ keys, k.length ≤ L) {w : List Byte} (hw : Path keys w) :
    upperBound s.head (pos s.code w) = w.length + 1 := by
  have hin := h.inside w hw
  have hl := hw.length_le hL
  refine takeWhile_len _ _ _ (by rw [h.hlen]; omega) ?_ ?_
  · intro i hi
    have := mono_le h.mono i w.length (by omega) (by omega)
    simp only [decide_eq_true_eq]
    omega
  · simp only [decide_eq_false_iff_not]
    omega

theorem accessLoop_spec {W : Nat} {keys : List Key} {L : Nat} {s : Samc} (h : Ok W keys L s) (hW : W ≤ 64) (hL : ∀ k ∈ keys, k.length ≤ L) :
    ∀ (d : Nat) (w text : List Byte), w.length = d → Path keys w → accessLoop s d (pos s.code w) text = some (w ++ text)
  | 0, w, text, hl, _ => by
    rw [List.eq_nil_of_length_eq_zero hl]
    rfl
  | d + 1, w, text, hl, hw => by
    have hW64 : 2 ^ W ≤ 2 ^ 64 := Nat.pow_le_pow_right (by decide) hW
    have hne : w ≠ [] := by rintro rfl; simp at hl
    obtain ⟨w', c, rfl⟩ : ∃ w' c, w = w' ++ [c] := ⟨_, _, (List.dropLast_append_getLast hne).symm⟩
    have hl' : w'.length = d := by simpa using hl
    have hlw := hw.length_le hL
    have hlab := h.label w' c hw
    have hst := pos_step (code := s.code) (w := w') (by rw [h.clen]; omega) c
    have hin := h.inside w' hw.init
    have hsm := h.small w'.length (by omega) c.toNat
    simp only [accessLoop, hlab, codeOf_eq h (show d ≤ L by omega), Option.bind_eq_bind, Option.bind_some]
    rw [← hl', hst]
    generalize (s.code.getD w'.length []).getD c.toNat 0 = x at hsm
    rw [show pos s.code w' + x + 2 ^ 64 - x = pos s.code w' + 2 ^ 64 by omega, Nat.add_mod_right, Nat.mod_eq_of_lt (by omega), hl',
      accessLoop_spec h hW hL d w' (c :: text) hl' hw.init]
    simp

end Verif.Samc

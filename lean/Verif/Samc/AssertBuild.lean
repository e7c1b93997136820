/-
The construction of Samc with its assertions, and what they need: no place is taken twice if the keys are sorted.
-/
import Verif.Samc.Build
import Mathlib.Data.List.Perm.Subperm
import Mathlib.Data.List.Nodup

namespace Verif.Samc
open Verif.BV Verif.Serial

/-- The value of `storage_map[index]`: the last assignment, Samc.hpp:159. -/
def lastAt (map : List (Nat × Byte)) (index : Nat) : Option Byte := (map.reverse.find? (fun p => p.1 = index)).map Prod.snd

/-- The loop over the queue with its assertions, Samc.hpp:154-164. `some none` is an abort. -/
def collectA (map : List (Nat × Byte)) (d h0 : Nat) : List (Nat × List Key) → Option (Option (List (Byte × Nat × List Key)))
  | [] => some (some [])
  | (index, node) :: q =>
    match lastAt map index with
    | none => some none
    | some c =>
      if c = 0 then some none
      else do
        let es ← edges d node
        let rest ← collectA map d h0 q
        match rest with
        | none => pure none
        | some rest => pure (some (es.map (fun e => (e.1, (index + 2 ^ 64 - h0) % 2 ^ 64, e.2)) ++ rest))

/-- The loop over the indices of a character with its assertion, Samc.hpp:187-200. -/
def placeA (h0 h1 : Nat) (c : Byte) (code : Nat) : List (Nat × List Key) → Lv → Option (Option Lv)
  | [], s => some (some s)
  | (i, node) :: es, s =>
    let index := (h0 + i + code) % 2 ^ 64
    if index ∈ s.map.map Prod.fst then some none
    else do
      let inset := (index + 2 ^ 64 - h1) % 2 ^ 64
      let bv ← s.bv.set inset false
      placeA h0 h1 c code es
        { s with bv := bv, mh := max s.mh (inset + 1), map := s.map ++ [(index, c)],
                 queue := if c ≠ 0 then s.queue ++ [(index, node)] else s.queue }

/-- The body of the loop over the characters, Samc.hpp:172-200. The assertion of `y_check_`, 225, compares an unsigned value with zero and is left out. -/
def charStepA (W : Nat) (legacy : Bool) (h0 h1 : Nat) (es : List (Byte × Nat × List Key)) (c : Nat) (s : Lv) : Option (Option Lv) :=
  let g := (es.filter (fun e => e.1.toNat = c)).map Prod.snd
  if g = [] then some (some s)
  else do
    let ids := g.map Prod.fst
    let bv ← grow s.bv (s.mh + (1 + lmax ids - lmin ids))
    let y ← yFront legacy ids bv
    let code := (((codeSub W h1 h0 : Nat) + y) % 2 ^ 64 : Int).toNat
    let codes ← wr s.codes c (code % 2 ^ W)
    placeA h0 h1 (BitVec.ofNat 8 c) code g { s with bv := bv, codes := codes }

/-- The loop over the characters, Samc.hpp:171-201. -/
def charLoopA (W : Nat) (legacy : Bool) (h0 h1 : Nat) (es : List (Byte × Nat × List Key)) : (n c : Nat) → Lv → Option (Option Lv)
  | 0, _, s => some (some s)
  | n + 1, c, s => do
    let r ← charStepA W legacy h0 h1 es c s
    match r with
    | none => pure none
    | some s => charLoopA W legacy h0 h1 es n (c + 1) s

/-- The body of the loop over the depths, Samc.hpp:152-208. -/
def levelA (W : Nat) (legacy : Bool) (d : Nat) (s : St) : Option (Option St) := do
  let h0 ← s.head[d]?
  let h1 ← s.head[d + 1]?
  let r ← collectA s.map d h0 s.queue
  match r with
  | none => pure none
  | some es => do
    let r ← charLoopA W legacy h0 h1 es 256 0 ⟨BV.empty, 0, List.replicate 256 0, s.map, []⟩
    match r with
    | none => pure none
    | some l => pure (some ⟨l.map, l.queue, s.code ++ [l.codes], s.head ++ [(h1 + l.mh) % 2 ^ W]⟩)

/-- The loop over the depths, Samc.hpp:145-209. -/
def levelsA (W : Nat) (legacy : Bool) : (n d : Nat) → St → Option (Option St)
  | 0, _, _ => none
  | n + 1, d, s =>
    if s.queue = [] then some (some s)
    else do
      let r ← levelA W legacy d s
      match r with
      | none => pure none
      | some s => levelsA W legacy n (d + 1) s

/-- The constructor of `_SamcImpl` with the assertions, Samc.hpp:115 and 137-216. -/
def buildA (W : Nat) (legacy : Bool) (keys : List Key) : Option (Option Samc) := do
  let r ← levelsA W legacy (lmax (keys.map List.length) + 2) 0 ⟨[(0, 94)], [(0, keys)], [], [0, 1]⟩
  match r with
  | none => pure none
  | some s => do
    let n ← s.head.getLast?
    let st ← store s.map (List.replicate n 0xff)
    pure (some ⟨st, s.code, s.head⟩)

/-! ### What is pushed -/

/-- What a run adds to the map and the queue. -/
def Adds (s l : Lv) (n : Nat) : Prop :=
  ∃ M Q, l.map = s.map ++ M ∧ l.queue = s.queue ++ Q ∧ M.length = n ∧ (Q.map Prod.fst).Sublist (M.map Prod.fst) ∧ ∀ p ∈ Q, ∃ c, c ≠ 0 ∧ (p.1, c) ∈ M

theorem Adds.refl (s : Lv) : Adds s s 0 := ⟨[], [], by simp, by simp, rfl, by simp, by simp⟩

theorem Adds.trans {s l m : Lv} {a b : Nat} (h1 : Adds s l a) (h2 : Adds l m b) : Adds s m (a + b) := by
  obtain ⟨M, Q, e1, e2, e3, e4, e5⟩ := h1
  obtain ⟨M', Q', f1, f2, f3, f4, f5⟩ := h2
  refine ⟨M ++ M', Q ++ Q', by rw [f1, e1, List.append_assoc], by rw [f2, e2, List.append_assoc], by simp [e3, f3], ?_, ?_⟩
  · rw [List.map_append, List.map_append]
    exact e4.append f4
  · intro p hp
    rcases List.mem_append.1 hp with hp | hp
    · obtain ⟨c, h, h'⟩ := e5 p hp
      exact ⟨c, h, List.mem_append_left _ h'⟩
    · obtain ⟨c, h, h'⟩ := f5 p hp
      exact ⟨c, h, List.mem_append_right _ h'⟩

theorem nodup_left {s l : Lv} {n : Nat} (h : Adds s l n) (hn : (l.map.map Prod.fst).Nodup) : (s.map.map Prod.fst).Nodup := by
  obtain ⟨M, Q, e1, _⟩ := h
  rw [e1, List.map_append] at hn
  exact (List.nodup_append.1 hn).1

theorem place_adds (h0 h1 : Nat) (c : Byte) (code : Nat) : ∀ (es : List (Nat × List Key)) (s l : Lv),
    place h0 h1 c code es s = some l → Adds s l es.length ∧ ((l.map.map Prod.fst).Nodup → placeA h0 h1 c code es s = some (some l))
  | [], s, l, h => by cases h; exact ⟨Adds.refl _, fun _ => rfl⟩
  | (i, node) :: es, s, l, h => by
    simp only [place, Option.bind_eq_bind, Option.bind_eq_some_iff] at h
    obtain ⟨bv, eb, h⟩ := h
    obtain ⟨a1, a2⟩ := place_adds h0 h1 c code es _ l h
    refine ⟨?_, ?_⟩
    · rw [List.length_cons, Nat.add_comm]
      refine Adds.trans ⟨[((h0 + i + code) % 2 ^ 64, c)], if c ≠ 0 then [((h0 + i + code) % 2 ^ 64, node)] else [], rfl, ?_, rfl, ?_, ?_⟩ a1
      · simp only
        split <;> simp
      · split <;> simp
      · intro p hp
        split at hp
        · rename_i hc
          rw [List.mem_singleton.1 hp]
          exact ⟨c, hc, by simp⟩
        · simp at hp
    · intro hn
      have h1 := nodup_left a1 hn
      simp only [List.map_append, List.map_cons, List.map_nil] at h1
      have h2 : (h0 + i + code) % 2 ^ 64 ∉ s.map.map Prod.fst := by
        intro hm
        exact (List.nodup_append.1 h1).2.2 _ hm _ (List.mem_singleton.2 rfl) rfl
      simp only [placeA]
      rw [if_neg h2]
      simp only [eb, Option.bind_eq_bind, Option.bind_some]
      exact a2 hn

theorem charStep_adds {W : Nat} {legacy : Bool} {h0 h1 : Nat} {es : List Edge} {c : Nat} {s l : Lv} (h : charStep W legacy h0 h1 es c s = some l) :
    Adds s l (es.filter (fun e => e.1.toNat = c)).length ∧ ((l.map.map Prod.fst).Nodup → charStepA W legacy h0 h1 es c s = some (some l)) := by
  simp only [charStep] at h
  simp only [charStepA]
  split at h
  · rename_i hg
    cases h
    rw [List.map_eq_nil_iff] at hg
    rw [hg, List.map_nil, if_pos rfl]
    exact ⟨Adds.refl _, fun _ => rfl⟩
  · rename_i hg
    rw [if_neg hg]
    simp only [Option.bind_eq_bind, Option.bind_eq_some_iff] at h
    obtain ⟨bv, e1, y, e2, cs, e3, h⟩ := h
    obtain ⟨a1, a2⟩ := place_adds _ _ _ _ _ _ _ h
    simp only [e1, e2, e3, Option.bind_eq_bind, Option.bind_some]
    rw [List.length_map] at a1
    exact ⟨a1, a2⟩

theorem charLoop_adds {W : Nat} {legacy : Bool} {h0 h1 : Nat} {es : List Edge} : ∀ (n c : Nat) (s l : Lv), c + n = 256 →
    charLoop W legacy h0 h1 es n c s = some l →
    Adds s l (es.filter (fun e => c ≤ e.1.toNat)).length ∧ ((l.map.map Prod.fst).Nodup → charLoopA W legacy h0 h1 es n c s = some (some l))
  | 0, c, s, l, hc, h => by
    cases h
    rw [List.filter_eq_nil_iff.2 (by
      intro e _
      have := e.1.isLt
      simp only [decide_eq_true_eq]
      omega)]
    exact ⟨Adds.refl _, fun _ => rfl⟩
  | n + 1, c, s, l, hc, h => by
    simp only [charLoop, Option.bind_eq_bind, Option.bind_eq_some_iff] at h
    obtain ⟨s1, e1, h⟩ := h
    obtain ⟨a1, a2⟩ := charStep_adds e1
    obtain ⟨b1, b2⟩ := charLoop_adds n (c + 1) s1 l (by omega) h
    refine ⟨?_, ?_⟩
    · have : (es.filter (fun e => c ≤ e.1.toNat)).length = (es.filter (fun e => e.1.toNat = c)).length + (es.filter (fun e => c + 1 ≤ e.1.toNat)).length := by
        clear a1 a2 b1 b2 h e1
        induction es with
        | nil => rfl
        | cons e es ih =>
          simp only [List.filter_cons]
          rcases Nat.lt_trichotomy e.1.toNat c with h | h | h
          · simp only [show ¬ c ≤ e.1.toNat by omega, show ¬ e.1.toNat = c by omega, show ¬ c + 1 ≤ e.1.toNat by omega, decide_false, Bool.false_eq_true,
              if_false]
            exact ih
          · simp only [h, show ¬ c + 1 ≤ c by omega, decide_true, decide_false, Bool.false_eq_true, if_false, if_true, Nat.le_refl,
              List.length_cons]
            omega
          · simp only [show c ≤ e.1.toNat by omega, show ¬ e.1.toNat = c by omega, show c + 1 ≤ e.1.toNat by omega, decide_true, decide_false,
              Bool.false_eq_true, if_false, if_true, List.length_cons]
            omega
      rw [this]
      exact a1.trans b1
    · intro hn
      simp only [charLoopA, a2 (nodup_left b1 hn), Option.bind_eq_bind, Option.bind_some]
      exact b2 hn

/-! ### Sorted keys -/

theorem charAt_mono {w k k' : List Byte} {d : Nat} (hw : w.length = d) (h : w <+: k) (h' : w <+: k') (hle : k ≤ k') {a b : Byte}
    (ha : charAt k d = some a) (hb : charAt k' d = some b) : a ≤ b := by
  obtain ⟨u, rfl⟩ := h
  obtain ⟨u', rfl⟩ := h'
  rw [charAt_eq (by simp; omega)] at ha hb
  simp only [ext, List.append_assoc] at ha hb
  rw [List.getElem?_append_right (by omega), hw, Nat.sub_self] at ha hb
  by_contra hc
  apply hle
  have hlt : u' < u := by
    cases u with
    | nil =>
      simp only [List.nil_append, List.getElem?_cons_zero, Option.some.injEq] at ha
      subst ha
      exact absurd (by bv_omega) hc
    | cons x u =>
      simp only [List.cons_append, List.getElem?_cons_zero, Option.some.injEq] at ha
      subst ha
      cases u' with
      | nil => exact List.Lex.nil
      | cons y u' =>
        simp only [List.cons_append, List.getElem?_cons_zero, Option.some.injEq] at hb
        subst hb
        exact List.Lex.rel (by bv_omega)
  clear ha hb hc hle hw
  induction w with
  | nil => exact hlt
  | cons x w ih => exact List.Lex.cons ih

/-- In the order of the characters at `d`. -/
def Ord (d : Nat) (k k' : Key) : Prop := ∀ a b, charAt k d = some a → charAt k' d = some b → a ≤ b

theorem runs_sorted (d : Nat) : ∀ (ks : List Key) (c : Byte) (cur : List Key) (es : List (Byte × List Key)), runs d c cur ks = some es →
    ks.Pairwise (Ord d) → (∀ k ∈ ks, ∀ b, charAt k d = some b → c ≤ b) →
    es.Pairwise (fun e e' => e.1 < e'.1) ∧ (∀ e ∈ es, c ≤ e.1) ∧ ∀ e ∈ es, e.2.Sublist (cur ++ ks)
  | [], c, cur, es, h, _, _ => by
    cases h
    refine ⟨by simp, ?_, ?_⟩
    · intro e he
      rw [List.mem_singleton.1 he]
      exact BitVec.le_refl _
    · intro e he
      rw [List.mem_singleton.1 he]
      simp
  | k :: ks, c, cur, es, h, hp, hc => by
    simp only [runs, Option.bind_eq_bind, Option.bind_eq_some_iff] at h
    obtain ⟨c', e1, h⟩ := h
    rw [List.pairwise_cons] at hp
    have hcc := hc k (List.mem_cons_self ..) c' e1
    split at h
    · rename_i heq
      obtain ⟨a1, a2, a3⟩ := runs_sorted d ks c (cur ++ [k]) es h hp.2 (fun k' hk' => hc k' (List.mem_cons_of_mem _ hk'))
      refine ⟨a1, a2, ?_⟩
      intro e he
      have := a3 e he
      rwa [List.append_assoc] at this
    · rename_i hne
      simp only [Option.bind_eq_some_iff, Option.pure_def, Option.some.injEq] at h
      obtain ⟨es', e2, rfl⟩ := h
      obtain ⟨a1, a2, a3⟩ := runs_sorted d ks c' [k] es' e2 hp.2 (fun k' hk' b hb => hp.1 k' hk' c' b e1 hb)
      have hlt : c < c' := by bv_omega
      refine ⟨List.pairwise_cons.2 ⟨fun e he => by have := a2 e he; simp only; bv_omega, a1⟩, ?_, ?_⟩
      · intro e he
        rcases List.mem_cons.1 he with rfl | he
        · exact BitVec.le_refl _
        · have := a2 e he
          bv_omega
      · intro e he
        rcases List.mem_cons.1 he with rfl | he
        · exact List.sublist_append_left ..
        · exact (a3 e he).trans (by rw [List.singleton_append]; exact List.sublist_append_right ..)

theorem runs0_sorted (d : Nat) (ks : List Key) (es : List (Byte × List Key)) (h : runs0 d ks = some es) (hp : ks.Pairwise (Ord d)) :
    es.Pairwise (fun e e' => e.1 < e'.1) ∧ (∀ k ∈ ks.head?, ∀ b, charAt k d = some b → ∀ e ∈ es, b ≤ e.1) ∧ (ks = [] → es = []) ∧ ∀ e ∈ es, e.2.Sublist ks := by
  cases ks with
  | nil =>
    cases h
    simp
  | cons k ks =>
    simp only [runs0, Option.bind_eq_bind, Option.bind_eq_some_iff] at h
    obtain ⟨c, e1, h⟩ := h
    rw [List.pairwise_cons] at hp
    obtain ⟨a1, a2, a3⟩ := runs_sorted d ks c [k] es h hp.2 (fun k' hk' b hb => hp.1 k' hk' c b e1 hb)
    refine ⟨a1, ?_, by simp, a3⟩
    intro k' hk' b hb e he
    simp only [List.head?_cons, Option.mem_def, Option.some.injEq] at hk'
    subst hk'
    rw [e1] at hb
    cases hb
    exact a2 e he

theorem edges_sorted (d : Nat) (ks : List Key) (es : List (Byte × List Key)) (h : edges d ks = some es) (hp : ks.Pairwise (Ord d))
    (hnul : ∀ k ∈ ks, (0 : Byte) ∉ k) (hd : ∀ k ∈ ks, d ≤ k.length) : es.Pairwise (fun e e' => e.1 < e'.1) ∧ ∀ e ∈ es, e.2.Sublist ks := by
  cases ks with
  | nil => simp [edges] at h
  | cons k ks =>
    simp only [edges] at h
    split at h
    · simp only [Option.bind_eq_bind, Option.bind_eq_some_iff, Option.pure_def, Option.some.injEq] at h
      obtain ⟨es', e1, rfl⟩ := h
      have hsub : (ks.dropWhile (fun k => k.length = d)).Sublist (k :: ks) := (List.dropWhile_sublist _).trans (List.sublist_cons_self ..)
      obtain ⟨a1, a2, a3, a4⟩ := runs0_sorted d _ es' e1 (hp.sublist hsub)
      refine ⟨List.pairwise_cons.2 ⟨?_, a1⟩, ?_⟩
      · intro e he
        cases hD : ks.dropWhile (fun k => k.length = d) with
        | nil => rw [a3 hD] at he; simp at he
        | cons x xs =>
          have hx : x ∈ k :: ks := hsub.subset (by rw [hD]; simp)
          have hxl : x.length ≠ d := by
            have := List.head_dropWhile_not (fun k : Key => decide (k.length = d)) (l := ks) (by rw [hD]; simp)
            simp only [hD, List.head_cons, decide_eq_false_iff_not] at this
            exact this
          have hdx := hd x hx
          have hlt : d < x.length := by omega
          have hc : charAt x d = some x[d] := by
            unfold charAt
            rw [if_neg (by omega), List.getElem?_eq_getElem hlt]
          have h1 := a2 x (by rw [hD]; rfl) _ hc e he
          have h2 : x[d] ≠ 0 := fun h0 => hnul x hx (h0 ▸ List.getElem_mem hlt)
          simp only
          bv_omega
      · intro e he
        rcases List.mem_cons.1 he with rfl | he
        · exact List.nil_sublist _
        · exact (a4 e he).trans hsub
    · obtain ⟨a1, _, _, a4⟩ := runs0_sorted d _ es h hp
      exact ⟨a1, a4⟩

theorem collect_sorted (d h0 : Nat) : ∀ (q : List (Nat × List Key)) (es : List Edge), collect d h0 q = some es → (q.map Prod.fst).Nodup →
    (∀ p ∈ q, h0 ≤ p.1 ∧ p.1 < 2 ^ 64 ∧ p.2.Pairwise (Ord d) ∧ (∀ k ∈ p.2, (0 : Byte) ∉ k) ∧ ∀ k ∈ p.2, d ≤ k.length) →
    (es.map (fun e => (e.1, e.2.1))).Nodup ∧ (∀ e ∈ es, ∃ p ∈ q, p.1 = h0 + e.2.1 ∧ e.2.2.Sublist p.2)
  | [], es, h, _, _ => by cases h; simp
  | (x, ks) :: q, es, h, hn, hq => by
    simp only [collect, Option.bind_eq_bind, Option.bind_eq_some_iff, Option.pure_def, Option.some.injEq] at h
    obtain ⟨e0, h1, rest, h2, rfl⟩ := h
    obtain ⟨q1, q2, q3, q4, q5⟩ := hq (x, ks) (List.mem_cons_self ..)
    simp only at q1 q2 q3 q4 q5
    simp only [List.map_cons, List.nodup_cons] at hn
    obtain ⟨a1, a2⟩ := edges_sorted d ks e0 h1 q3 q4 q5
    obtain ⟨b1, b2⟩ := collect_sorted d h0 q rest h2 hn.2 (fun p hp => hq p (List.mem_cons_of_mem _ hp))
    have hx : (x + 2 ^ 64 - h0) % 2 ^ 64 = x - h0 := by
      rw [show x + 2 ^ 64 - h0 = x - h0 + 2 ^ 64 by omega, Nat.add_mod_right, Nat.mod_eq_of_lt (by omega)]
    rw [hx]
    refine ⟨?_, ?_⟩
    · rw [List.map_append, List.map_map, List.nodup_append]
      refine ⟨?_, b1, ?_⟩
      · rw [List.Nodup, List.pairwise_map]
        refine a1.imp ?_
        intro e e' hlt he
        simp only [Function.comp, Prod.mk.injEq] at he
        rw [he.1] at hlt
        exact absurd hlt (by bv_omega)
      · intro a ha b hb hab
        obtain ⟨e, he, rfl⟩ := List.mem_map.1 ha
        obtain ⟨e', he', rfl⟩ := List.mem_map.1 hb
        simp only [Function.comp, Prod.mk.injEq] at hab
        obtain ⟨p, hp, hp1, _⟩ := b2 e' he'
        exact hn.1 (List.mem_map.2 ⟨p, hp, by omega⟩)
    · intro e he
      rcases List.mem_append.1 he with he | he
      · obtain ⟨e', he', rfl⟩ := List.mem_map.1 he
        exact ⟨(x, ks), List.mem_cons_self .., by simp only; omega, a2 e' he'⟩
      · obtain ⟨p, hp, h⟩ := b2 e he
        exact ⟨p, List.mem_cons_of_mem _ hp, h⟩

/-! ### The levels -/

/-- What the assertions need before a level. -/
structure AInv (s : St) : Prop where
  nodup : (s.map.map Prod.fst).Nodup
  qnodup : (s.queue.map Prod.fst).Nodup
  qmap : ∀ p ∈ s.queue, ∃ c, c ≠ 0 ∧ (p.1, c) ∈ s.map
  sorted : ∀ p ∈ s.queue, p.2.Pairwise (fun k k' => k ≤ k')

theorem lastAt_eq {map : List (Nat × Byte)} (hn : (map.map Prod.fst).Nodup) {i : Nat} {c : Byte} (h : (i, c) ∈ map) : lastAt map i = some c := by
  unfold lastAt
  cases hf : map.reverse.find? (fun p => p.1 = i) with
  | none =>
    have := List.find?_eq_none.1 hf (i, c) (List.mem_reverse.2 h)
    simp at this
  | some p =>
    have h1 := List.mem_reverse.1 (List.mem_of_find?_eq_some hf)
    have h2 : p.1 = i := by simpa using List.find?_some hf
    have := List.inj_on_of_nodup_map hn h1 h h2
    rw [this]
    rfl

theorem collectA_eq {map : List (Nat × Byte)} (hn : (map.map Prod.fst).Nodup) (d h0 : Nat) : ∀ (q : List (Nat × List Key)) (es : List Edge),
    collect d h0 q = some es → (∀ p ∈ q, ∃ c, c ≠ 0 ∧ (p.1, c) ∈ map) → collectA map d h0 q = some (some es)
  | [], es, h, _ => by cases h; rfl
  | (x, ks) :: q, es, h, hq => by
    simp only [collect, Option.bind_eq_bind, Option.bind_eq_some_iff, Option.pure_def, Option.some.injEq] at h
    obtain ⟨e0, h1, rest, h2, rfl⟩ := h
    obtain ⟨c, hc, hm⟩ := hq (x, ks) (List.mem_cons_self ..)
    have ih := collectA_eq hn d h0 q rest h2 (fun p hp => hq p (List.mem_cons_of_mem _ hp))
    simp only [collectA, lastAt_eq hn hm]
    rw [if_neg hc]
    simp only [h1, ih, Option.bind_eq_bind, Option.bind_some, Option.pure_def]

theorem level_assert {W : Nat} {legacy : Bool} {keys : List Key} {d : Nat} {s s' : St} (hW : W ≤ 64) (hnul : ∀ k ∈ keys, 0 ∉ k)
    (hbig : (d + 2) * (1 + (d + 1) * (keys.length * keys.length)) < 2 ^ W) (h : GInv W keys d s) (a : AInv s) (hl : level W legacy d s = some s') :
    levelA W legacy d s = some (some s') ∧ AInv s' := by
  have hW64 : 2 ^ W ≤ 2 ^ 64 := Nat.pow_le_pow_right (by decide) hW
  have eh0 : s.head[d]? = some (s.head.getD d 0) := by
    rw [List.getD_eq_getElem?_getD, List.getElem?_eq_getElem (by rw [h.hlen]; omega)]; rfl
  have eh1 : s.head[d + 1]? = some (s.head.getD (d + 1) 0) := by
    rw [List.getD_eq_getElem?_getD, List.getElem?_eq_getElem (by rw [h.hlen]; omega)]; rfl
  have hlt := h.mono d (Nat.le_refl _)
  have hheight := h.height
  have htotal := h.total
  have hh1W : s.head.getD (d + 1) 0 < 2 ^ W := h.hsmall _ (List.mem_of_getElem? eh1)
  have hmono := mono_le h.mono
  have hold : ∀ x ∈ s.map.map Prod.fst, x < s.head.getD (d + 1) 0 := by
    intro x hx
    obtain ⟨p, hp, rfl⟩ := List.mem_map.1 hx
    rcases h.mapS p hp with rfl | ⟨w, c, hw, hwl, rfl⟩
    · simp only; omega
    · have h1 := (h.inside (w ++ [c]) hw (by simp; omega)).2
      have h2 := hmono ((w ++ [c]).length + 1) (d + 1) (by simp; omega) (by omega)
      simp only
      omega
  generalize hH0 : s.head.getD d 0 = h0 at eh0 hlt hheight
  generalize hH1 : s.head.getD (d + 1) 0 = h1 at eh1 hlt hheight htotal hh1W hold
  have hqok : ∀ p ∈ s.queue, p.2 ≠ [] ∧ h0 ≤ p.1 ∧ p.1 < 2 ^ 64 ∧ ∀ k ∈ p.2, d ≤ k.length := by
    intro p hp
    obtain ⟨a1, w, a2, a3, a4⟩ := h.queueS p hp
    obtain ⟨k, hk⟩ := List.exists_mem_of_ne_nil _ a1
    have hpath : Path keys w := ⟨k, (a4 k hk).1, (a4 k hk).2.trans (List.prefix_append _ _)⟩
    have hin := h.inside w hpath (by omega)
    rw [a2, hH0, hH1] at hin
    refine ⟨a1, by omega, by omega, ?_⟩
    intro k hk
    have := (a4 k hk).2.length_le
    omega
  obtain ⟨es, ees, c1, c2, c3, c4, c5⟩ := collect_spec d h0 s.queue hqok
  have hqn := h.queueN
  have hidx : ∀ e ∈ es, e.2.1 < h1 - h0 := by
    intro e he
    obtain ⟨p, hp, h2, k, hk, h3⟩ := c1 e he
    obtain ⟨_, w, a2, a3, a4⟩ := h.queueS p hp
    have hpath : Path keys w := ⟨k, (a4 k hk).1, (a4 k hk).2.trans (List.prefix_append _ _)⟩
    have hin := h.inside w hpath (by omega)
    rw [a2, hH0, hH1] at hin
    omega
  have hn2 : es.length * es.length ≤ keys.length * keys.length := Nat.mul_le_mul (by omega) (by omega)
  generalize hm : keys.length * keys.length = m at hn2 hbig hheight htotal
  have hB : (d + 2) * (1 + (d + 1) * m) = (d + 1) * (1 + d * m) + (d + 1) * m + (1 + d * m) + m := by ring
  have hbig' : h1 + (h1 - h0) + es.length * es.length < 2 ^ W := by
    have : 0 ≤ (d + 1) * m := Nat.zero_le _
    omega
  obtain ⟨l, el, li⟩ := charLoop_inv (legacy := legacy) (map0 := s.map) hlt hW hbig' hidx 256 0 _ rfl (linv_start h0 (h1 - h0) es s.map)
  simp only [level, eh0, eh1, ees, el, Option.bind_eq_bind, Option.bind_some, Option.pure_def, Option.some.injEq] at hl
  subst hl
  obtain ⟨hnk, hsubl⟩ := collect_sorted d h0 s.queue es ees a.qnodup (by
    intro p hp
    obtain ⟨q1, q2, q3, q4⟩ := hqok p hp
    obtain ⟨_, w, a2, a3, a4⟩ := h.queueS p hp
    refine ⟨q2, q3, ?_, fun k hk => hnul k (a4 k hk).1, q4⟩
    refine (a.sorted p hp).imp_of_mem ?_
    intro k k' hk hk' hle x y hx hy
    exact charAt_mono a2 (a4 k hk).2 (a4 k' hk').2 hle hx hy)
  obtain ⟨⟨M, Q, m1, m2, m3, m4, m5⟩, mA⟩ := charLoop_adds 256 0 _ l rfl el
  simp only [List.nil_append] at m1 m2
  rw [List.filter_eq_self.2 (by simp)] at m3
  obtain ⟨M', m1', mM⟩ := li.map
  obtain rfl : M = M' := List.append_cancel_left (m1.symm.trans m1')
  have hMn : (M.map Prod.fst).Nodup := by
    have hfn : (es.map (fun e => h0 + e.2.1 + l.codes.getD e.1.toNat 0)).Nodup := by
      rw [List.Nodup, List.pairwise_map]
      rw [List.Nodup, List.pairwise_map] at hnk
      refine hnk.imp_of_mem ?_
      intro e e' he he' hne heq
      have h2 := li.inj e he e' he' e.1.isLt e'.1.isLt (by omega)
      rw [h2] at heq
      exact hne (by rw [h2, show e.2.1 = e'.2.1 by omega])
    have hsub : es.map (fun e => h0 + e.2.1 + l.codes.getD e.1.toNat 0) ⊆ M.map Prod.fst := by
      intro x hx
      obtain ⟨e, he, rfl⟩ := List.mem_map.1 hx
      exact List.mem_map.2 ⟨_, (mM _).2 ⟨e, he, e.1.isLt, rfl⟩, rfl⟩
    exact ((List.subperm_of_subset hfn hsub).perm_of_length_le (by simp [m3])).nodup_iff.1 hfn
  have hall : (l.map.map Prod.fst).Nodup := by
    rw [m1, List.map_append, List.nodup_append]
    refine ⟨a.nodup, hMn, ?_⟩
    intro x hx y hy hxy
    have h2 := hold x hx
    obtain ⟨p, hp, rfl⟩ := List.mem_map.1 hy
    obtain ⟨e, he, _, rfl⟩ := (mM p).1 hp
    have := (li.pos e he e.1.isLt).1
    simp only at hxy
    omega
  refine ⟨?_, hall, ?_, ?_, ?_⟩
  · simp only [levelA, eh0, eh1, collectA_eq a.nodup d h0 s.queue es ees a.qmap, mA hall, Option.bind_eq_bind, Option.bind_some, Option.pure_def]
  · simp only [m2]
    exact hMn.sublist m4
  · intro p hp
    simp only [m2] at hp
    obtain ⟨c, hc, hm⟩ := m5 p hp
    exact ⟨c, hc, by simp only [m1]; exact List.mem_append_right _ hm⟩
  · intro p hp
    obtain ⟨e, he, _, _, rfl⟩ := (li.queue p).1 hp
    obtain ⟨p', hp', _, hs⟩ := hsubl e he
    exact (a.sorted p' hp').sublist hs

theorem levels_assert {W : Nat} {legacy : Bool} {keys : List Key} (hW : W ≤ 64) (hnul : ∀ k ∈ keys, 0 ∉ k) (L : Nat)
    (hL : ∀ k ∈ keys, k.length ≤ L) (hbig : (L + 2) * (1 + (L + 1) * (keys.length * keys.length)) < 2 ^ W) : ∀ (n d : Nat) (s s' : St),
    GInv W keys d s → AInv s → levels W legacy n d s = some s' → levelsA W legacy n d s = some (some s')
  | 0, _, _, _, _, _, h => by simp [levels] at h
  | n + 1, d, s, s', h, a, hl => by
    simp only [levels] at hl
    simp only [levelsA]
    by_cases hq : s.queue = []
    · rw [if_pos hq] at hl ⊢
      cases hl
      rfl
    · rw [if_neg hq] at hl ⊢
      have hd : d ≤ L := by
        obtain ⟨p, hp⟩ := List.exists_mem_of_ne_nil _ hq
        obtain ⟨a1, w, a2, a3, a4⟩ := h.queueS p hp
        obtain ⟨k, hk⟩ := List.exists_mem_of_ne_nil _ a1
        have := (a4 k hk).2.length_le
        have := hL k (a4 k hk).1
        omega
      have hb : (d + 2) * (1 + (d + 1) * (keys.length * keys.length)) < 2 ^ W :=
        Nat.lt_of_le_of_lt (Nat.mul_le_mul (by omega) (Nat.add_le_add_left (Nat.mul_le_mul_right _ (by omega)) _)) hbig
      obtain ⟨s1, e1, h1⟩ := level_inv (legacy := legacy) hW hnul hb h hq
      obtain ⟨eA, a1⟩ := level_assert hW hnul hb h a e1
      simp only [e1, Option.bind_eq_bind, Option.bind_some] at hl
      simp only [eA, Option.bind_eq_bind, Option.bind_some]
      exact levels_assert hW hnul L hL hbig n (d + 1) s1 s' h1 a1 hl

end Verif.Samc

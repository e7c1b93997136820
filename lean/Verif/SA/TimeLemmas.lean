/-
The counted functions of Verif/SA/Time.lean compute what those of Verif/SA/Model.lean compute, and the number of their steps.
-/
import Verif.SA.Time
import Verif.SA.Sais
import Mathlib.Algebra.BigOperators.Group.List.Basic

namespace Verif.SA

/-- `m` computes `p` with at most `K` steps. -/
def Costs {β : Type} (m : M β) (p : Option β) (K : Nat) : Prop :=
  ∀ c, (m c).map Prod.fst = p ∧ ∀ x, m c = some x → x.2 ≤ c + K

theorem Costs.mono {β : Type} {m : M β} {p : Option β} {K L : Nat} (h : Costs m p K) (hl : K ≤ L) : Costs m p L :=
  fun c => ⟨(h c).1, fun x hx => by have := (h c).2 x hx; omega⟩

theorem Costs.pure {β : Type} (a : β) : Costs (pure a : M β) (some a) 0 :=
  fun c => ⟨rfl, fun x hx => by cases hx; exact Nat.le_refl _⟩

theorem Costs.fail {β : Type} (K : Nat) : Costs (may none : M β) none K := fun c => ⟨rfl, fun x hx => by cases hx⟩

theorem Costs.ticks {β : Type} {k : Nat} {m : M β} {p : Option β} {K : Nat} (h : Costs m p K) :
    Costs (do ticks k; m) p (k + K) := fun c => by
  have e : (do SA.ticks k; m : M β) c = m (c + k) := rfl
  rw [e]
  exact ⟨(h _).1, fun x hx => by have := (h _).2 x hx; omega⟩

theorem Costs.bind {β γ : Type} {m : M β} {p : Option β} {K : Nat} {f : β → M γ} {g : β → Option γ} {L : Nat} (h : Costs m p K)
    (hf : ∀ a, p = some a → Costs (f a) (g a) L) : Costs (m >>= f) (p >>= g) (K + L) := fun c => by
  have e : (m >>= f) c = (m c).bind (fun x => f x.1 x.2) := rfl
  rw [e]
  obtain ⟨h1, h2⟩ := h c
  cases hm : m c with
  | none =>
    rw [hm] at h1
    rw [← h1]
    exact ⟨rfl, fun x hx => by cases hx⟩
  | some x =>
    rw [hm] at h1
    simp only [Option.map_some] at h1
    rw [← h1]
    have h3 := h2 x hm
    obtain ⟨h4, h5⟩ := hf x.1 h1.symm x.2
    refine ⟨h4, fun y hy => ?_⟩
    have := h5 y hy
    omega

theorem Costs.may {β γ : Type} {o : Option β} {f : β → M γ} {g : β → Option γ} {L : Nat} (hf : ∀ a, o = some a → Costs (f a) (g a) L) :
    Costs (may o >>= f) (o >>= g) L := by
  have h : Costs (SA.may o) o 0 := fun c => by
    cases o with
    | none => exact ⟨rfl, fun x hx => by cases hx⟩
    | some a => exact ⟨rfl, fun x hx => by cases hx; exact Nat.le_refl _⟩
  exact (Costs.bind h hf).mono (by omega)

theorem Costs.map {β γ : Type} {m : M β} {p : β} {K : Nat} {f : β → M γ} {q : Option γ} {L : Nat} (h : Costs m (some p) K)
    (hf : Costs (f p) q L) : Costs (m >>= f) q (K + L) :=
  Costs.bind (g := fun _ => q) h (fun a ha => by cases ha; exact hf)

theorem countBucketsC_costs : ∀ str cs : List Nat, Costs (countBucketsC str cs) (countBuckets str cs) str.length
  | [], cs => Costs.pure cs
  | s :: str, cs => by
    rw [countBucketsC, countBuckets, List.length_cons, Nat.add_comm]
    exact Costs.ticks (Costs.may fun c _ => Costs.may fun cs _ => countBucketsC_costs str cs)

theorem placeBucketsC_costs : ∀ (cs : List Nat) (k : Nat), Costs (placeBucketsC cs k) (some (placeBuckets cs k)) cs.length
  | [], _ => Costs.pure []
  | c :: cs, k => by
    rw [placeBucketsC, placeBuckets, List.length_cons]
    exact (Costs.ticks ((placeBucketsC_costs cs (k + c)).map (L := 0) (f := fun bs => pure (_ :: bs)) (Costs.pure _))).mono (by omega)

theorem wr_length {α : Type} {l l' : List α} {i : Nat} {v : α} (h : wr l i v = some l') : l'.length = l.length := by
  unfold wr at h
  split at h
  · cases h
    exact List.length_set
  · cases h

theorem countBuckets_length : ∀ (str cs cs' : List Nat), countBuckets str cs = some cs' → cs'.length = cs.length
  | [], cs, cs', h => by cases h; rfl
  | s :: str, cs, cs', h => by
    rw [countBuckets] at h
    simp only [Option.bind_eq_bind, Option.bind_eq_some_iff] at h
    obtain ⟨c, _, cs1, h1, h2⟩ := h
    rw [countBuckets_length str cs1 cs' h2, wr_length h1]

theorem makeBucketsC_costs (str : List Nat) (mx : Nat) : Costs (makeBucketsC str mx) (makeBuckets str mx) (2 * (mx + 1) + str.length) := by
  unfold makeBucketsC makeBuckets
  refine (Costs.ticks (Costs.bind (L := mx + 1) (countBucketsC_costs str _) fun cs hcs => ?_)).mono (by omega)
  have := countBuckets_length _ _ _ hcs
  rw [List.length_replicate] at this
  rw [← this]
  exact placeBucketsC_costs cs 0

theorem makeBuckets_length {str : List Nat} {mx : Nat} {bs : List Bucket} (h : makeBuckets str mx = some bs) : bs.length = mx + 1 := by
  unfold makeBuckets at h
  simp only [Option.bind_eq_bind, Option.bind_eq_some_iff] at h
  obtain ⟨cs, h1, h2⟩ := h
  cases h2
  rw [placeBuckets_length, countBuckets_length _ _ _ h1, List.length_replicate]

theorem classifyC_costs : ∀ str : List Nat, Costs (classifyC str) (some (classify str)) str.length
  | [] => Costs.pure []
  | [_] => (Costs.pure [true]).mono (by omega)
  | a :: b :: l => by
    rw [classifyC, classify]
    exact ((classifyC_costs (b :: l)).map (L := 1) (Costs.ticks (Costs.pure _))).mono (by simp)

theorem classifiedC_costs (str : List Nat) : Costs (classifiedC str) (classified str) (2 * str.length) := by
  unfold classifiedC classified
  refine (Costs.ticks (K := str.length) ?_).mono (by omega)
  split
  · exact Costs.fail _
  · exact classifyC_costs str

theorem lmsFromC_costs : ∀ (ts : List Bool) (i : Nat), Costs (lmsFromC ts i) (some (lmsFrom ts i)) ts.length
  | [], i => Costs.pure []
  | [_], i => (Costs.pure []).mono (by omega)
  | t0 :: t1 :: ts, i => by
    rw [lmsFromC, lmsFrom]
    refine (Costs.ticks ((lmsFromC_costs (t1 :: ts) (i + 1)).map (L := 0) ?_)).mono (by simp; omega)
    split
    · exact Costs.pure _
    · exact Costs.pure _

/-- The number of rounds of `EqualLMSs_` is at most the length of the LMS substring. -/
def span : List Bool → Bool → Nat
  | [], _ => 0
  | t :: ts, cur => if !cur && t then 1 else 1 + span ts t

theorem eqLoopC_costs (str : List Nat) (ty : List Bool) : ∀ (k li ri : Nat) (cur : Bool), str.length - li = k →
    Costs (eqLoopC str ty li ri cur) (eqLoop str ty li ri cur) (1 + span (ty.drop li) cur) := by
  intro k
  induction k with
  | zero =>
    intro li ri cur hk
    rw [eqLoopC, eqLoop, dif_neg (by omega), dif_neg (by omega)]
    exact Costs.fail _
  | succ k ih =>
    intro li ri cur hk
    rw [eqLoopC, eqLoop, dif_pos (by omega), dif_pos (by omega)]
    refine Costs.ticks ?_
    cases str[ri]? with
    | none => exact Costs.fail _
    | some b =>
      simp only
      split
      · exact (Costs.pure _).mono (by omega)
      · cases ht : ty[li]? with
        | none => exact Costs.fail _
        | some t =>
          simp only
          obtain ⟨hl, rfl⟩ := List.getElem?_eq_some_iff.1 ht
          rw [List.drop_eq_getElem_cons hl, span]
          by_cases hc : (!cur && ty[li]) = true
          · rw [if_pos hc, if_pos hc, if_pos hc]
            exact (Costs.pure _).mono (by omega)
          · rw [if_neg hc, if_neg hc, if_neg hc]
            exact ih (li + 1) (ri + 1) _ (by omega)

theorem putBucket_length {bs : List Bucket} {sa : List Nat} {sl : Bool} {c id : Nat} {x : List Bucket × List Nat × Nat}
    (h : putBucket bs sa sl c id = some x) : x.1.length = bs.length ∧ x.2.1.length = sa.length := by
  unfold putBucket at h
  simp only [Option.bind_eq_bind, Option.bind_eq_some_iff] at h
  obtain ⟨b, _, h⟩ := h
  split at h
  · cases h
  · split at h
    · simp only [Option.bind_eq_some_iff] at h
      obtain ⟨sa', h1, bs', h2, h3⟩ := h
      cases h3
      exact ⟨wr_length h2, wr_length h1⟩
    · simp only [Option.bind_eq_some_iff] at h
      obtain ⟨sa', h1, bs', h2, h3⟩ := h
      cases h3
      exact ⟨wr_length h2, wr_length h1⟩

theorem putLmsC_costs (str lms : List Nat) : ∀ (is : List Nat) (st : List Bucket × List Nat × List Nat),
    Costs (putLmsC str lms is st) (putLms str lms is st) is.length ∧
      ∀ x, putLms str lms is st = some x → x.1.length = st.1.length ∧ x.2.1.length = st.2.1.length ∧ x.2.2.length = st.2.2.length
  | [], st => ⟨Costs.pure st, fun x h => by cases h; exact ⟨rfl, rfl, rfl⟩⟩
  | i :: is, (bs, sa, poss) => by
    rw [putLmsC, putLms, List.length_cons, Nat.add_comm]
    refine ⟨Costs.ticks (Costs.may fun id _ => Costs.may fun c _ => Costs.may fun x hx => Costs.may fun p hp => (putLmsC_costs str lms is _).1), ?_⟩
    intro x h
    simp only [Option.bind_eq_bind, Option.bind_eq_some_iff] at h
    obtain ⟨id, _, c, _, y, hy, p, hp, h⟩ := h
    obtain ⟨h1, h2⟩ := putBucket_length hy
    obtain ⟨h3, h4, h5⟩ := (putLmsC_costs str lms is _).2 x h
    exact ⟨h3.trans h1, h4.trans h2, h5.trans (wr_length hp)⟩

theorem scanStep_length {str : List Nat} {ty : List Bool} {want : Bool} {i : Nat} {st x : List Bucket × List Nat}
    (h : scanStep str ty want i st = some x) : x.1.length = st.1.length ∧ x.2.length = st.2.length := by
  unfold scanStep at h
  simp only [Option.bind_eq_bind, Option.bind_eq_some_iff] at h
  obtain ⟨id, _, h⟩ := h
  split at h
  · cases h
    exact ⟨rfl, rfl⟩
  · simp only [Option.bind_eq_some_iff] at h
    obtain ⟨t, _, h⟩ := h
    split at h
    · cases h
      exact ⟨rfl, rfl⟩
    · simp only [Option.bind_eq_some_iff] at h
      obtain ⟨c, _, y, hy, h⟩ := h
      cases h
      exact putBucket_length hy

theorem scanLC_costs (str : List Nat) (ty : List Bool) : ∀ (r i : Nat) (st : List Bucket × List Nat),
    Costs (scanLC str ty r i st) (scanL str ty r i st) r ∧
      ∀ x, scanL str ty r i st = some x → x.1.length = st.1.length ∧ x.2.length = st.2.length
  | 0, _, st => ⟨Costs.pure st, fun x h => by cases h; exact ⟨rfl, rfl⟩⟩
  | r + 1, i, st => by
    rw [scanLC, scanL]
    refine ⟨(Costs.ticks (Costs.may fun s _ => (scanLC_costs str ty r (i + 1) s).1)).mono (by omega), ?_⟩
    intro x h
    simp only [Option.bind_eq_bind, Option.bind_eq_some_iff] at h
    obtain ⟨y, hy, h⟩ := h
    obtain ⟨h1, h2⟩ := scanStep_length hy
    obtain ⟨h3, h4⟩ := (scanLC_costs str ty r (i + 1) y).2 x h
    exact ⟨h3.trans h1, h4.trans h2⟩

theorem scanSC_costs (str : List Nat) (ty : List Bool) : ∀ (i : Nat) (st : List Bucket × List Nat),
    Costs (scanSC str ty i st) (scanS str ty i st) i
  | 0, st => Costs.pure st
  | i + 1, st => by
    rw [scanSC, scanS, Nat.add_comm]
    exact Costs.ticks (Costs.may fun s _ => scanSC_costs str ty i s)

theorem removeLmsC_costs : ∀ (ps sa : List Nat), Costs (removeLmsC ps sa) (removeLms ps sa) ps.length ∧
    ∀ x, removeLms ps sa = some x → x.length = sa.length
  | [], sa => ⟨Costs.pure sa, fun x h => by cases h; rfl⟩
  | p :: ps, sa => by
    rw [removeLmsC, removeLms, List.length_cons, Nat.add_comm]
    split
    · exact ⟨Costs.ticks (removeLmsC_costs ps sa).1, (removeLmsC_costs ps sa).2⟩
    · refine ⟨Costs.ticks (Costs.may fun s _ => (removeLmsC_costs ps s).1), ?_⟩
      intro x h
      simp only [Option.bind_eq_bind, Option.bind_eq_some_iff] at h
      obtain ⟨y, hy, h⟩ := h
      rw [(removeLmsC_costs ps y).2 x h, wr_length hy]

theorem resetC_costs : ∀ bs : List Bucket,
    Costs (resetC bs) (some (bs.map (fun b => { b with sPos := dec64 (b.index + b.count) }))) bs.length
  | [] => Costs.pure []
  | b :: bs => by
    rw [resetC, List.length_cons, List.map_cons]
    exact (Costs.ticks ((resetC_costs bs).map (L := 0) (f := fun l => pure (_ :: l)) (Costs.pure _))).mono (by omega)

/-- `Induce_`. -/
theorem induceC_costs (mx : Nat) (str : List Nat) (ty : List Bool) (lms : List Nat) (order : Option (List Nat))
    (ho : ∀ o, order = some o → o.length = lms.length) :
    Costs (induceC mx str ty lms order) (induce mx str ty lms order) (4 * str.length + 3 * (mx + 1) + 3 * lms.length) := by
  unfold induceC induce
  refine (Costs.ticks (Costs.bind (L := 2 * str.length + (mx + 1) + 3 * lms.length) (makeBucketsC_costs str mx) fun bs hbs => ?_)).mono (by omega)
  have hb := makeBuckets_length hbs
  refine Costs.mono (K := lms.length + (lms.length + (2 * str.length + (mx + 1) + lms.length))) ?_ (by omega)
  cases order with
  | none =>
    exact Costs.ticks (Costs.bind ((putLmsC_costs str lms _ _).1.mono (by simp)) fun x hx => rest hb ((putLmsC_costs str lms _ _).2 x hx))
  | some o =>
    exact Costs.ticks (Costs.bind ((putLmsC_costs str lms _ _).1.mono (by simp [ho o rfl])) fun x hx =>
      rest hb ((putLmsC_costs str lms _ _).2 x hx))
where
  rest {bs : List Bucket} (hb : bs.length = mx + 1) {x : List Bucket × List Nat × List Nat}
      (hx : x.1.length = bs.length ∧ x.2.1.length = (List.replicate str.length kInf).length ∧ x.2.2.length = (List.replicate lms.length 0).length) :
      Costs (do
        let y ← scanLC str ty x.2.1.length 0 (x.1, x.2.1)
        let sa ← removeLmsC x.2.2 y.2
        let bs ← resetC y.1
        let z ← scanSC str ty sa.length (bs, sa)
        pure z.2) (match x with
        | (bs, sa, poss) => do
          let (bs, sa) ← scanL str ty sa.length 0 (bs, sa)
          let sa ← removeLms poss sa
          let bs := bs.map (fun b => { b with sPos := dec64 (b.index + b.count) })
          let (_, sa) ← scanS str ty sa.length (bs, sa)
          pure sa) (2 * str.length + (mx + 1) + lms.length) := by
    obtain ⟨h1, h2, h3⟩ := hx
    simp only [List.length_replicate] at h1 h2 h3
    obtain ⟨b, s, ps⟩ := x
    simp only at h1 h2 h3 ⊢
    refine (Costs.bind (L := str.length + (mx + 1) + lms.length) (scanLC_costs str ty _ 0 _).1 fun y hy => ?_).mono (by omega)
    obtain ⟨h4, h5⟩ := (scanLC_costs str ty _ 0 _).2 y hy
    simp only at h4 h5
    refine (Costs.bind (L := str.length + (mx + 1)) (removeLmsC_costs _ _).1 fun sa hsa => ?_).mono (by omega)
    have h6 := (removeLmsC_costs _ _).2 sa hsa
    refine ((resetC_costs y.1).map (L := str.length) ?_).mono (by omega)
    exact (Costs.bind (L := 0) (scanSC_costs str ty _ _) fun z hz => Costs.pure _).mono (by omega)

/-! ### The comparisons of LMS substrings -/

/-- What the comparison that starts at position `i` costs. -/
def weight (prev : Bool) (ts : List Bool) (i : Nat) : Nat :=
  if (prev :: ts)[i]? = some false ∧ ts[i]? = some true then 1 + span (ts.drop i) true else 0

theorem weight_succ (prev t : Bool) (ts : List Bool) (i : Nat) : weight prev (t :: ts) (i + 1) = weight t ts i := by
  unfold weight
  simp

theorem weight_sum : ∀ (ts : List Bool) (prev : Bool) (i : Nat),
    ((List.range ts.length).map (weight prev ts)).sum + span ts prev ≤ ts.length + 2 * (lmsFrom (prev :: ts) i).length
  | [], prev, i => by simp [span]
  | t :: ts, prev, i => by
    have ih := weight_sum ts t (i + 1)
    rw [List.length_cons, List.range_succ_eq_map, List.map_cons, List.sum_cons, List.map_map, lmsFrom]
    have : (weight prev (t :: ts) ∘ Nat.succ) = weight t ts := by
      funext j
      exact weight_succ prev t ts j
    rw [this, span]
    have hw : weight prev (t :: ts) 0 = if !prev && t then 2 + span ts t else 0 := by
      unfold weight
      cases prev <;> cases t <;> simp [span]
      omega
    rw [hw]
    split
    · rw [List.length_cons]
      omega
    · omega

/-- The naming loop: every position is the left side of one comparison at most. -/
theorem nameLoopC_costs (str : List Nat) (ty : List Bool) : ∀ (ids sub : List Nat) (ch last : Nat),
    Costs (nameLoopC str ty ids (sub, ch, last)) (nameLoop str ty ids (sub, ch, last))
      (ids.length + (if last > 0 then 1 + span (ty.drop last) true else 0) + (ids.map (weight true ty)).sum)
  | [], sub, ch, last => (Costs.pure _).mono (by omega)
  | id :: ids, sub, ch, last => by
    rw [nameLoopC, nameLoop, List.length_cons, List.map_cons, List.sum_cons]
    by_cases h0 : id = 0
    · rw [if_pos h0, if_pos h0]
      exact (Costs.ticks (nameLoopC_costs str ty ids sub ch last)).mono (by omega)
    · rw [if_neg h0, if_neg h0]
      refine (Costs.ticks (Costs.may (L := ids.length + (if last > 0 then 1 + span (ty.drop last) true else 0) + (weight true ty id +
        (ids.map (weight true ty)).sum)) fun t ht => ?_)).mono (by omega)
      cases t with
      | false =>
        simp only [Bool.false_eq_true, if_false]
        exact (nameLoopC_costs str ty ids sub ch last).mono (by omega)
      | true =>
        simp only [if_true]
        have hw : weight true ty id = 1 + span (ty.drop id) true := by
          unfold weight
          rw [if_pos]
          unfold isLms at ht
          obtain ⟨j, rfl⟩ : ∃ j, id = j + 1 := ⟨id - 1, by omega⟩
          rw [List.getElem?_cons_succ]
          rw [Nat.add_sub_cancel] at ht
          cases h1 : ty[j]? with
          | none => rw [h1] at ht; cases ht
          | some b =>
            rw [h1] at ht
            cases b with
            | true => simp at ht
            | false => exact ⟨rfl, ht⟩
        have hs : Costs (sameNameC str ty last id) (sameName str ty last id) (if last > 0 then 1 + span (ty.drop last) true else 0) := by
          unfold sameNameC sameName equalLMSs
          split
          · exact eqLoopC_costs str ty _ last id true rfl
          · exact Costs.pure _
        refine (Costs.bind (L := ids.length + (weight true ty id + (ids.map (weight true ty)).sum)) hs fun e _ => Costs.may fun sub' _ => ?_).mono
          (by omega)
        refine (nameLoopC_costs str ty ids sub' _ id).mono ?_
        rw [if_pos (by omega), hw]
        omega

theorem collectC_costs : ∀ l : List Nat, Costs (collectC l) (some (l.filter (fun c => decide (c ≠ kInf)))) l.length
  | [] => Costs.pure []
  | c :: cs => by
    rw [collectC, List.length_cons, Nat.add_comm]
    refine Costs.ticks ((collectC_costs cs).map (L := 0) ?_)
    rw [List.filter_cons]
    by_cases h : c = kInf
    · simp only [h, ne_eq, not_true_eq_false, if_false, decide_false, Bool.false_eq_true]
      exact Costs.pure _
    · simp only [h, ne_eq, not_false_eq_true, if_true, decide_true]
      exact Costs.pure _

theorem nameLoop_length (str : List Nat) (ty : List Bool) : ∀ (ids sub : List Nat) (ch last : Nat) (x : List Nat × Nat),
    nameLoop str ty ids (sub, ch, last) = some x → x.1.length = sub.length
  | [], sub, ch, last, x, h => by cases h; rfl
  | id :: ids, sub, ch, last, x, h => by
    rw [nameLoop] at h
    split at h
    · exact nameLoop_length str ty ids sub ch last x h
    · simp only [Option.bind_eq_bind, Option.bind_eq_some_iff] at h
      obtain ⟨t, _, h⟩ := h
      split at h
      · simp only [Option.bind_eq_some_iff] at h
        obtain ⟨e, _, s, hs, h⟩ := h
        rw [nameLoop_length str ty ids s _ id x h, wr_length hs]
      · exact nameLoop_length str ty ids sub ch last x h

/-- `InducedSort_` for a text. -/
theorem inducedSortC_costs {str : List Nat} {mx : Nat} (hT : Text str mx) :
    Costs (inducedSortC mx str (classify str) (findLMSs (classify str))) (inducedSort mx str (classify str) (findLMSs (classify str)))
      (9 * str.length + 3 * (mx + 1) + 7 * (findLMSs (classify str)).length) := by
  unfold inducedSortC inducedSort
  refine (Costs.bind (L := 5 * str.length + 4 * (findLMSs (classify str)).length) (induceC_costs mx str _ _ none (fun o h => by cases h))
    fun sa hsa => ?_).mono (by omega)
  obtain ⟨sa', e, hp, _⟩ := induce_keys hT none (List.Perm.refl _)
  rw [hsa] at e
  cases e
  have hlen : sa.length = str.length := by rw [hp.length_eq, List.length_range]
  have hcl := classify_length str
  have hsum : (sa.map (weight true (classify str))).sum ≤ str.length + 2 * (findLMSs (classify str)).length := by
    rw [(hp.map _).sum_eq, ← hcl]
    have := weight_sum (classify str) true 0
    have h2 : (lmsFrom (true :: classify str) 0).length = (findLMSs (classify str)).length := by
      have hne : classify str ≠ [] := by
        intro hc
        rw [hc] at hcl
        have := hT.two
        simp at hcl
        omega
      cases hc : classify str with
      | nil => exact absurd hc hne
      | cons t ts =>
        rw [lmsFrom]
        rfl
    omega
  refine (Costs.ticks (Costs.bind (L := 2 * str.length + 2 * (findLMSs (classify str)).length) (nameLoopC_costs str _ _ _ _ _) fun x hx => ?_)).mono ?_
  · have hl := nameLoop_length _ _ _ _ _ _ _ hx
    rw [List.length_replicate] at hl
    refine (Costs.ticks ((collectC_costs x.1).map (L := str.length + (findLMSs (classify str)).length) ?_)).mono (by omega)
    obtain ⟨sub, ch⟩ := x
    simp only
    by_cases hf : (sub.filter (fun c => decide (c ≠ kInf))).length ≤ (findLMSs (classify str)).length
    · rw [if_pos hf, if_pos hf]
      exact (Costs.ticks (Costs.pure _)).mono (by omega)
    · rw [if_neg hf, if_neg hf]
      exact Costs.fail _
  · simp only [gt_iff_lt, Nat.lt_irrefl, if_false]
    omega

end Verif.SA

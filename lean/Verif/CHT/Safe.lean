/-
Tables with deleted slots: whatever the calls return, a table holds only pairs that were set.
-/
import Verif.CHT.Erase

namespace Verif.CHT
open Verif.Bits Verif.Fit

variable {P : Par} {kb vw : Nat} {t : Tab} {M : Nat → Option Nat} {s : Nat} {home : Nat → Nat}

/-- The state of a table between calls, with any marks and any `size_`. -/
def Safe (P : Par) (kb vw : Nat) (t : Tab) (M : Nat → Option Nat) : Prop := WT kb vw t ∧ ∃ s home, At P kb vw t M s home

/-- Every pair of `M'` is in `M`. -/
def Sub (kb : Nat) (M' M : Nat → Option Nat) : Prop := ∀ k, k < 2 ^ kb → ∀ v, M' k = some v → M k = some v

theorem Sub.trans {M M' M'' : Nat → Option Nat} (h : Sub kb M'' M') (h' : Sub kb M' M) : Sub kb M'' M := fun k hk v e => h' k hk v (h k hk v e)

theorem Sub.upd {M M' : Nat → Option Nat} (h : Sub kb M' M) (k v : Nat) : Sub kb (upd M' k v) (upd M k v) := by
  intro x hx u e
  unfold CHT.upd at *
  split
  · rename_i hxk
    rw [if_pos hxk] at e
    exact e
  · rename_i hxk
    rw [if_neg hxk] at e
    exact h x hx u e

theorem nextNull_full (w : WT kb vw t) (hall : ∀ p, p < t.bucket → (view kb t s p).fil) : ∀ (n j : Nat), j < t.bucket → t.nextNull n j = none
  | 0, _, _ => rfl
  | n + 1, j, hj => by
    have hs := succ_lt hj
    obtain ⟨p, hp, e⟩ := exists_off w.pos s (t.succ j) hs
    obtain ⟨x, hx, _, _, _, _, _, hz⟩ := read_view w s p
    rw [e] at hx
    rw [Tab.nextNull]
    simp only [hx, Option.bind_eq_bind, Option.bind_some]
    rw [if_neg (fun h => hz.1 h (hall p hp))]
    exact nextNull_full w hall n _ hs

theorem insert_full (w : WT kb vw t) (hall : ∀ p, p < t.bucket → (view kb t s p).fil) (h e q v : Nat) : t.insert h ((s + e) % t.bucket) q v = none := by
  obtain ⟨x, hx, _, _, _, _, _, hz⟩ := read_view w s e
  have hf : (view kb t s e).fil := by
    have := hall (e % t.bucket) (idx_lt w e)
    unfold view at *
    rw [Nat.add_mod_mod] at this
    exact this
  unfold Tab.insert Tab.makeRoom
  simp only [hx, Option.bind_eq_bind, Option.bind_some]
  rw [if_neg (fun h => hz.1 h hf), nextNull_full w hall _ _ (idx_lt w _)]
  rfl

theorem put_safe (G : Good P kb) (S : Safe P kb vw t M) {k v : Nat} (hk : k < 2 ^ kb) (hv : v < 2 ^ vw) {t' : Tab} (e : t.put P k v = some t') :
    Safe P kb vw t' (upd M k v) := by
  obtain ⟨w, s, home, A⟩ := S
  by_cases hu : t.used < t.bucket
  · obtain ⟨t1, e1, w1, _, h, _⟩ := put_spec G w A hu hk hv
    rw [e1] at e
    rw [← Option.some.inj e]
    exact ⟨w1, h⟩
  · have hall : ∀ p, p < t.bucket → (view kb t s p).fil := by
      intro p hp
      by_contra hn
      have h1 := A.count
      have h2 := filled_le (view kb t s) p
      have h3 := filled_add (f := view kb t s) (p + 1) (t.bucket - (p + 1))
      have h4 := filled_le (fun q => view kb t s (q + (p + 1))) (t.bucket - (p + 1))
      rw [Nat.sub_add_cancel (by omega), filled, if_neg hn] at h3
      omega
    obtain ⟨y, hy, e1, _⟩ := G.fwd k hk
    obtain ⟨p1, p2, _⟩ := hash_parts w hy
    obtain ⟨h, hh, hhy⟩ := exists_off w.pos s (y % t.bucket) (Nat.mod_lt _ w.pos)
    obtain ⟨i, hi, hcase⟩ := A.search w hk hh e1 hhy
    obtain ⟨x, hx, ho, _⟩ := read_view w s h
    rw [hhy] at hx hi
    unfold Tab.put at e
    simp only [w.keyBits, e1, Option.bind_eq_bind, Option.bind_some, p1, p2, hx, ho, hi] at e
    rcases hcase with ⟨h1, h2, h3⟩ | ⟨h1, p, h2, h3, h4, h5⟩ | ⟨h1, h2, e', h4, h5⟩
    · simp only [h1, Bool.false_eq_true, if_false, insert_full w hall] at e
      simp at e
    · simp only [h1, if_true, h5, Option.bind_some] at e
      obtain ⟨t1, g1, g2, _, _, g5, _⟩ := A.assign w G hk hv e1 h2 h3 h4
      rw [g1] at e
      rw [← Option.some.inj e]
      exact ⟨g2, s, home, g5⟩
    · simp only [h1, if_true, h5, Option.bind_some, Bool.false_eq_true, if_false, insert_full w hall] at e
      simp at e

/-- What is known of a table that is being filled from one that holds `M`. -/
def PartS (P : Par) (kb vw : Nat) (M : Nat → Option Nat) (nx : Tab) : Prop := ∃ M', Safe P kb vw nx M' ∧ Sub kb M' M

/-- What `set` may do if it returns. -/
def SetSafe (P : Par) (kb vw : Nat) (setF : Tab → Nat → Nat → Option Tab) : Prop :=
  ∀ nx M' k v nx', Safe P kb vw nx M' → k < 2 ^ kb → v < 2 ^ vw → setF nx k v = some nx' → ∃ M'', Safe P kb vw nx' M'' ∧ Sub kb M'' (upd M' k v) ∧ M'' k = some v

theorem copyOne_safe (G : Good P kb) (w : WT kb vw t) (A : At P kb vw t M s home) {setF : Tab → Nat → Nat → Option Tab} (hset : SetSafe P kb vw setF)
    {p : Nat} (hp : p < t.bucket) (hf : (view kb t s p).fil) {nx nx' : Tab} (hpart : PartS P kb vw M nx) {x : Nat} (hq : t.quo x = (view kb t s p).quo)
    (e : t.copyOne P setF x ((s + p) % t.bucket) (some ((s + home p) % t.bucket)) nx = some nx') : PartS P kb vw M nx' := by
  obtain ⟨M', S, hsub⟩ := hpart
  obtain ⟨k, hk, e1, e2⟩ := G.bwd _ (A.range p hp hf)
  have hM : M k = some (vals vw t s p) := (A.has k hk _).2 ⟨p, hp, hf, e2, rfl⟩
  unfold Tab.copyOne at e
  by_cases hd : isDel x = true
  · rw [if_pos hd] at e
    rw [← Option.some.inj e]
    exact ⟨M', S, hsub⟩
  · rw [if_neg hd] at e
    simp only [Option.bind_eq_bind, Option.bind_some, w.keyBits, hq] at e
    have : ((view kb t s p).quo <<< t.bucketBits ||| (s + home p) % t.bucket) = code kb t s home p := by
      rw [← Nat.shiftLeft_add_eq_or_of_lt (by rw [← w.bucket]; exact idx_lt w _), Nat.shiftLeft_eq, ← w.bucket]
      rfl
    rw [this, e1, Option.bind_some, get_val w (idx_lt w _), Option.bind_some] at e
    obtain ⟨M'', S', h1, _⟩ := hset nx M' k _ nx' S hk (val_lt _) e
    refine ⟨M'', S', fun x hx v hv => ?_⟩
    have h2 := h1 x hx v hv
    unfold upd at h2
    split at h2
    · rename_i hxk
      rw [hxk, hM]
      exact h2
    · exact hsub x hx v h2

theorem cluster_safe (G : Good P kb) (w : WT kb vw t) (A : At P kb vw t M s home) {setF : Tab → Nat → Nat → Option Tab} (hset : SetSafe P kb vw setF) :
    ∀ (n p c0 : Nat) (qs : List Nat) (f : Option Nat) (nx : Tab) (r : Nat × Nat × Tab), p < t.bucket → (view kb t s p).fil → PartS P kb vw M nx →
      (((view kb t s p).sh = false ∧ qs = []) ∨
        (∃ p', p = p' + 1 ∧ (view kb t s p').fil ∧ (view kb t s p).sh = true ∧ f = some ((s + home p') % t.bucket) ∧ qs = queue kb t s (home p') p)) →
      t.cluster P setF n ((s + p) % t.bucket) c0 qs f nx = some r →
      ∃ e, p < e ∧ e ≤ t.bucket ∧ r.1 = (s + e) % t.bucket ∧ r.2.1 = c0 + (e - p) ∧
        PartS P kb vw M r.2.2 ∧ (view kb t s e).sh = false ∧ ∀ q, p ≤ q → q < e → (view kb t s q).fil := by
  have L := A.lay
  have hsh0 : (view kb t s 0).sh = false := by
    cases h : (view kb t s 0).sh with
    | false => rfl
    | true =>
      have := ((L.sh 0 w.pos).1 h).2
      omega
  intro n
  induction n with
  | zero => intro p c0 qs f nx r _ _ _ _ e; simp [Tab.cluster] at e
  | succ n ih =>
    intro p c0 qs f nx r hp hf hpart hpre e
    obtain ⟨x, hx, ho, hc, _, hd, hq, _⟩ := read_view w s p
    obtain ⟨x1, hx1, _, _, hs1, _⟩ := read_view w s (p + 1)
    simp only [Tab.cluster, hx, Option.bind_eq_bind, Option.bind_some, Option.pure_def, pop_spec L hp hf ho hc hpre, succ_idx w] at e
    rw [Nat.add_assoc] at e
    obtain ⟨nx', e1, e⟩ := Option.bind_eq_some_iff.1 e
    have hpart' := copyOne_safe G w A hset hp hf hpart hq e1
    rw [hx1, Option.bind_some, hs1] at e
    by_cases hsh : (view kb t s (p + 1)).sh = true
    · rw [if_pos hsh] at e
      have hpB : p + 1 < t.bucket := by
        by_contra hlt
        rw [show p + 1 = 0 + t.bucket by omega, view_per, hsh0] at hsh
        simp at hsh
      have hf1 := ((L.sh _ hpB).1 hsh).1
      obtain ⟨e', g1, g2, g3, g4, g5, g6, g7⟩ := ih (p + 1) (c0 + 1) (queue kb t s (home p) (p + 1)) (some ((s + home p) % t.bucket)) nx' r hpB hf1 hpart'
        (.inr ⟨p, rfl, hf, hsh, rfl, rfl⟩) e
      refine ⟨e', by omega, g2, g3, by omega, g5, g6, ?_⟩
      intro q h1 h2
      by_cases hqp : q = p
      · rw [hqp]; exact hf
      · exact g7 q (by omega) h2
    · rw [if_neg hsh] at e
      rw [← Option.some.inj e]
      refine ⟨p + 1, by omega, by omega, rfl, ?_, hpart', by simpa using hsh, ?_⟩
      · show c0 + 1 = c0 + (p + 1 - p)
        omega
      · intro q h1 h2
        rw [show q = p by omega]
        exact hf

theorem clusters_safe (G : Good P kb) (w : WT kb vw t) (A : At P kb vw t M s home) {setF : Tab → Nat → Nat → Option Tab} (hset : SetSafe P kb vw setF) :
    ∀ (n p c0 : Nat) (nx nx' : Tab), p ≤ t.bucket → (view kb t s p).sh = false → c0 = filled (view kb t s) p → PartS P kb vw M nx →
      t.clusters P setF n ((s + p) % t.bucket) c0 nx = some nx' → PartS P kb vw M nx' := by
  have L := A.lay
  intro n
  induction n with
  | zero =>
    intro p c0 nx nx' _ _ _ h5 e
    rw [Tab.clusters] at e
    split at e
    · simp at e
    · rw [← Option.some.inj e]
      exact h5
  | succ n ih =>
    intro p c0 nx nx' h2 h3 h4 h5 e
    rw [Tab.clusters] at e
    by_cases hc : c0 < t.used
    · rw [if_pos hc] at e
      have hex : ∃ q, p ≤ q ∧ q < t.bucket ∧ (view kb t s q).fil := by
        by_contra hno
        push Not at hno
        have := filled_none (f := view kb t s) (p := p) (d := t.bucket - p) (fun q g1 g2 => hno q g1 (by omega))
        rw [show p + (t.bucket - p) = t.bucket by omega, ← A.count] at this
        omega
      obtain ⟨q, q1, q2, q3, q4, q5, q6⟩ := L.first h3 hex
      rw [skip_spec w ⟨q4, q5⟩ (q - p) p t.bucket (by omega) (by omega) (fun g g1 g2 h => q6 g g1 g2 (.inl h.1))] at e
      simp only [Option.bind_eq_bind, Option.bind_some] at e
      obtain ⟨r, e1, e⟩ := Option.bind_eq_some_iff.1 e
      obtain ⟨e', g1, g2, g3, g4, g5, g6, g7⟩ := cluster_safe G w A hset t.bucket q c0 [] none nx r q2 q3 h5 (.inl ⟨q5, rfl⟩) e1
      rw [g3] at e
      refine ih e' r.2.1 r.2.2 nx' g2 g6 ?_ g5 e
      obtain ⟨d, rfl⟩ : ∃ d, q = p + d := ⟨q - p, by omega⟩
      obtain ⟨d', rfl⟩ : ∃ d', e' = p + d + d' := ⟨e' - (p + d), by omega⟩
      rw [filled_all g7, filled_none q6]
      omega
    · rw [if_neg hc] at e
      rw [← Option.some.inj e]
      exact h5

theorem copy_safe (G : Good P kb) (S : Safe P kb vw t M) {setF : Tab → Nat → Nat → Option Tab} (hset : SetSafe P kb vw setF)
    {nx t' : Tab} (hnx : Safe P kb vw nx (fun _ => none)) (e : t.clusters P setF t.used 0 0 nx = some t') : PartS P kb vw M t' := by
  obtain ⟨w, s, home, A⟩ := S
  have hB := w.pos
  obtain ⟨s, home, A, hstart⟩ := A.begin w
  have hsh0 : (view kb t s 0).sh = false := by
    cases h : (view kb t s 0).sh with
    | false => rfl
    | true =>
      have := ((A.lay.sh 0 hB).1 h).2
      omega
  refine clusters_safe G w A hset t.used 0 0 nx t' (by omega) hsh0 rfl ⟨_, hnx, fun _ _ _ h => by simp at h⟩ ?_
  rw [← e]
  rcases Nat.eq_zero_or_pos t.used with h0 | hpos
  · rw [h0]; rfl
  · obtain ⟨h5, h6⟩ := hstart hpos
    obtain ⟨n, hn⟩ : ∃ n, t.used = n + 1 := ⟨t.used - 1, by omega⟩
    have : ∀ i, t.skip t.bucket i = some (s % t.bucket) → t.clusters P setF t.used i 0 nx =
        (t.cluster P setF t.bucket (s % t.bucket) 0 [] none nx).bind (fun r => t.clusters P setF n r.1 r.2.1 r.2.2) := by
      intro i hi
      rw [hn, Tab.clusters, if_pos (by omega), hi]
      rfl
    rw [this 0 h5, Nat.add_zero, this (s % t.bucket) h6]

theorem ofSize_le {w n : Nat} {v : FVec} (h : ofSize w n = some v) : w ≤ 63 := by
  by_contra hlt
  have : Fit.new w = none := by
    simp only [Fit.new, widthMask, if_neg (show ¬ w < 64 by omega)]
    rfl
  simp [ofSize, this] at h

theorem new_safe {strict : Bool} {b : Nat} (hb : b < 64) {t : Tab} (h : new P strict kb (2 ^ b) = some t) :
    t.keyBits = kb ∧ t.bucket = 2 ^ t.bucketBits ∧ t.bucketMask = t.bucket - 1 ∧ t.quoMask = qmask (kb - t.bucketBits) ∧ WF t.arr (kb - t.bucketBits + 4) ∧
      t.arr.size = t.bucket ∧ ofSize P.vbits t.bucket = some t.values ∧ t.used = 0 ∧ elems t.arr (kb - t.bucketBits + 4) = List.replicate t.bucket 0 := by
  cases strict with
  | true =>
    rw [C44_strict_ub] at h
    simp at h
  | false =>
  unfold new at h
  simp only [Bool.false_eq_true, if_false, ctz_pow hb, Option.bind_eq_bind, Option.pure_def] at h
  obtain ⟨_, _, h⟩ := Option.bind_eq_some_iff.1 h
  obtain ⟨va, e1, h⟩ := Option.bind_eq_some_iff.1 h
  obtain ⟨ar, e2, h⟩ := Option.bind_eq_some_iff.1 h
  obtain ⟨ar', e3, w2, s2, l2⟩ := ofSize_spec (kb - b + 4) (2 ^ b) (by omega) (ofSize_le e2)
  rw [e2] at e3
  rw [← Option.some.inj e3] at w2 s2 l2
  rw [← Option.some.inj h]
  exact ⟨rfl, rfl, rfl, rfl, w2, s2, e1, rfl, l2⟩

theorem new_safe' (V : Width P vw) (hv : P.vbits = vw) {strict : Bool} {b : Nat} (hb : b < 64) {t : Tab} (h : new P strict kb (2 ^ b) = some t) :
    Safe P kb vw t (fun _ => none) := by
  obtain ⟨h1, h2, h3, h4, h5, h6, h7, h8, h9⟩ := new_safe hb h
  obtain ⟨va, e, w1, s1, _⟩ := ofSize_spec vw t.bucket V.pos V.le
  rw [hv, e] at h7
  rw [Option.some.inj h7] at w1 s1
  exact ⟨⟨h1, h2, h3, h4, h5, h6, w1, s1⟩, 0, id, (empty_at t h9 h8).1⟩

theorem width_safe (V : Width P vw) {strict : Bool} {b : Nat} (hb : b < 64) {t0 t : Tab} (h : new P strict kb (2 ^ b) = some t0) (e : t0.setValueWidth P vw = some (some t)) :
    Safe P kb vw t (fun _ => none) := by
  obtain ⟨h1, h2, h3, h4, h5, h6, _, h8, h9⟩ := new_safe hb h
  obtain ⟨va, e', w1, s1, _⟩ := ofSize_spec vw t0.bucket V.pos V.le
  unfold Tab.setValueWidth at e
  split at e
  · simp at e
  · simp only [e', Option.bind_eq_bind, Option.bind_some, Option.pure_def, Option.some.injEq] at e
    rw [← e]
    exact ⟨⟨h1, h2, h3, h4, h5, h6, w1, s1⟩, 0, id, (empty_at { t0 with values := va } h9 h8).1⟩

theorem fresh_safe (V : Width P vw) (w : WT kb vw t) {strict : Bool} {b : Nat} (hb : b < 64) {nx : Tab} (h : t.fresh P strict (2 ^ b) = some nx) :
    Safe P kb vw nx (fun _ => none) := by
  unfold Tab.fresh at h
  rw [w.keyBits] at h
  obtain ⟨t0, e1, h⟩ := Option.bind_eq_some_iff.1 h
  by_cases hv : P.vbits = 0
  · rw [if_pos hv, w.values.width] at h
    obtain ⟨r, e2, h⟩ := Option.bind_eq_some_iff.1 h
    rw [h] at e2
    exact width_safe V hb e1 e2
  · rw [if_neg hv] at h
    rw [← Option.some.inj h]
    exact new_safe' V (V.arg.resolve_right hv) hb e1

theorem reserveWith_safe (G : Good P kb) (V : Width P vw) (S : Safe P kb vw t M) {strict : Bool} {setF : Tab → Nat → Nat → Option Tab} (hset : SetSafe P kb vw setF)
    {n : Nat} {t' : Tab} (e : t.reserveWith P strict setF n = some t') : PartS P kb vw M t' := by
  unfold Tab.reserveWith at e
  split at e
  · rw [← Option.some.inj e]
    exact ⟨M, S, fun _ _ _ h => h⟩
  · simp only at e
    split at e
    · rename_i hb
      unfold Tab.resize at e
      obtain ⟨nx, e1, e⟩ := Option.bind_eq_some_iff.1 e
      exact copy_safe G S hset (fresh_safe V S.1 hb e1) e
    · simp at e

theorem setD_safe (G : Good P kb) (V : Width P vw) (strict : Bool) : ∀ d, SetSafe P kb vw (setD P strict d)
  | 0 => by
    intro nx M' k v nx' _ _ _ e
    simp [setD] at e
  | d + 1 => by
    intro nx M' k v nx' S hk hv e
    have key : ∀ t1, PartS P kb vw M' t1 → t1.put P k v = some nx' → ∃ M'', Safe P kb vw nx' M'' ∧ Sub kb M'' (upd M' k v) ∧ M'' k = some v := by
      rintro t1 ⟨M1, S1, hsub⟩ e
      exact ⟨_, put_safe G S1 hk hv e, hsub.upd k v, if_pos rfl⟩
    rw [setD] at e
    split at e
    · obtain ⟨t1, e1, e⟩ := Option.bind_eq_some_iff.1 e
      exact key t1 (reserveWith_safe G V S (setD_safe G V strict d) e1) e
    · exact key nx ⟨M', S, fun _ _ _ h => h⟩ e

/-- `erase` behind the check of the size. -/
theorem eraseIn_spec (G : Good P kb) (w : WT kb vw t) (A : At P kb vw t M s home) {k : Nat} (hk : k < 2 ^ kb) (hbb : t.bucketBits ≠ 0) :
    ∃ t', t.eraseIn P k = some t' ∧ (t' = t ∨ (WT kb vw t' ∧ At P kb vw t' M s home ∧ Kept t t' ∧ t'.used = t.used ∧ t'.size = (t.size + 2 ^ 64 - 1) % 2 ^ 64 ∧
      lcount kb t = lcount kb t' + 1)) := by
  obtain ⟨y, hy, hash, _⟩ := G.fwd k hk
  obtain ⟨_, p2, _⟩ := hash_parts w hy
  have hyB := idx_lt w y
  obtain ⟨x, hx⟩ : ∃ x, t.arr.get (y % t.bucket) = some x := ⟨_, get_word w hyB⟩
  unfold Tab.eraseIn Tab.eraseQuo
  generalize (t.size + 2 ^ 64 - 1) % 2 ^ 64 = n
  simp only [Option.bind_eq_bind, Option.bind_some, w.keyBits, hash, Option.pure_def, p2, hx, if_neg hbb]
  by_cases ho : isOcc x = true
  · rw [if_pos ho]
    obtain ⟨h, hh, hhy⟩ := exists_off w.pos s (y % t.bucket) hyB
    have ho' : (view kb t s h).occ = true := by
      obtain ⟨x', hx', ho2, _⟩ := read_view w s h
      rw [hhy, hx] at hx'
      rw [← ho2, ← Option.some.inj hx']
      exact ho
    obtain ⟨i, H⟩ := exists_head (B := t.bucket) (f := view kb t s) (home := home) h hh
    have hhead := head_spec w A.lay hh H
    rw [hhy] at hhead
    obtain ⟨hi, hfi, hhi⟩ := H.occ A.lay hh ho'
    rw [hhead, Option.bind_some]
    rcases find_spec w A.lay h (y / t.bucketBits) t.bucket i hi (by omega) hfi hhi with ⟨p, g1, g2, g3, g4, g5, g6⟩ | ⟨e', g1, g2, g3, g4, g5⟩
    · rw [g6, Option.bind_some]
      simp only [if_true, get_word w (idx_lt w _), Option.bind_some]
      split
      · exact ⟨t, rfl, .inl rfl⟩
      · rename_i hnd
        have hlt : word kb t ((s + p) % t.bucket) ||| kDel < 2 ^ (kb - t.bucketBits + 4) := by
          refine Nat.or_lt_two_pow (word_lt _) ?_
          exact Nat.lt_of_lt_of_le (show kDel < 2 ^ 4 by decide) (Nat.pow_le_pow_right (by decide) (by omega))
        obtain ⟨a, ea, wa, Aa, fa, va⟩ := A.remark w g2 g3 true hlt (by rw [decode_or_del]; rfl) n
        rw [ea, Option.bind_some]
        have hkb := w.keyBits
        refine ⟨_, rfl, .inr ⟨by subst hkb; exact wa, by subst hkb; exact Aa, ⟨rfl, rfl, rfl, rfl⟩, rfl, rfl, ?_⟩⟩
        have hl : (view kb t s p).lv := ⟨g3, by
          show isDel (word kb t ((s + p) % t.bucket)) = false
          simpa using hnd⟩
        have key : lcount kb t = lcount kb { t with arr := a, size := n } + 1 := by
          rw [← lcount_eq s, ← lcount_eq s]
          refine live_one (y := p) (fun h => ?_) hl g2 (fun q hq hqp => ?_)
          · have := h.2
            rw [va p g2, if_pos rfl] at this
            simp at this
          · rw [va q hq, if_neg hqp]
        subst hkb
        exact key
    · rw [g5, Option.bind_some]
      simp only [Bool.false_eq_true, if_false]
      exact ⟨t, rfl, .inl rfl⟩
  · rw [if_neg ho]
    exact ⟨t, rfl, .inl rfl⟩

theorem eraseIn_safe (G : Good P kb) (S : Safe P kb vw t M) {k : Nat} (hk : k < 2 ^ kb) {t' : Tab} (e : t.eraseIn P k = some t') : Safe P kb vw t' M := by
  obtain ⟨w, s, home, A⟩ := S
  by_cases hbb : t.bucketBits = 0
  · obtain ⟨y, _, hash, _⟩ := G.fwd k hk
    unfold Tab.eraseIn Tab.eraseQuo at e
    simp only [Option.bind_eq_bind, Option.bind_some, w.keyBits, hash, if_pos hbb, Option.bind_none, reduceCtorEq] at e
  · obtain ⟨t1, e1, h⟩ := eraseIn_spec G w A hk hbb
    rw [e] at e1
    rw [Option.some.inj e1]
    rcases h with rfl | ⟨w1, A1, _⟩
    · exact ⟨w, s, home, A⟩
    · exact ⟨w1, s, home, A1⟩

theorem erase_safe (G : Good P kb) (V : Width P vw) (S : Safe P kb vw t M) {strict : Bool} {d k : Nat} (hk : k < 2 ^ kb) {t' : Tab} (e : t.eraseD P strict d k = some t') :
    PartS P kb vw M t' := by
  unfold Tab.eraseD at e
  obtain ⟨t1, e1, e⟩ := Option.bind_eq_some_iff.1 e
  have hp : PartS P kb vw M t1 := by
    split at e1
    · exact reserveWith_safe G V S (setD_safe G V strict d) e1
    · rw [← Option.some.inj e1]
      exact ⟨M, S, fun _ _ _ h => h⟩
  obtain ⟨M1, S1, hsub⟩ := hp
  exact ⟨M1, eraseIn_safe G S1 hk e, hsub⟩

end Verif.CHT

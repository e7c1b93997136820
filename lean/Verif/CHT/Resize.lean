/-
Copying a table into a new one.
-/
import Verif.CHT.Map
import Verif.Fit.Props

namespace Verif.CHT
open Verif.Bits Verif.Fit

/-- The state of a table between calls, as long as nothing is erased. -/
structure Inv (P : Par) (kb vw : Nat) (t : Tab) (M : Nat → Option Nat) : Prop where
  wt : WT kb vw t
  maxSize : t.maxSize = t.bucket * P.load / 100
  minSize : t.minSize = t.bucket * (P.load - 1) / 400 + 1
  room : 100 ≤ t.bucket * P.load
  fits : t.bucket * P.load < 2 ^ 64
  noDel : NoDel kb t
  size : t.size = t.used
  small : t.bucket ≤ 2 ^ 63
  used : t.used ≤ t.maxSize
  has : ∃ s home, At P kb vw t M s home

variable {P : Par} {kb vw : Nat} {t : Tab} {M : Nat → Option Nat} {s : Nat} {home : Nat → Nat}

theorem Inv.congr {M' : Nat → Option Nat} (I : Inv P kb vw t M) (h : ∀ k, k < 2 ^ kb → M' k = M k) : Inv P kb vw t M' := by
  obtain ⟨s, home, A⟩ := I.has
  exact ⟨I.wt, I.maxSize, I.minSize, I.room, I.fits, I.noDel, I.size, I.small, I.used, s, home, A.lay, A.range, fun k hk v => by rw [h k hk]; exact A.has k hk v, A.count⟩

theorem At.code_inj (w : WT kb vw t) (A : At P kb vw t M s home) {p q : Nat} (hp : p < t.bucket) (hq : q < t.bucket) (hf : (view kb t s p).fil)
    (hqf : (view kb t s q).fil) (e : code kb t s home q = code kb t s home p) : q = p := by
  have hh : ∃ y, y = code kb t s home p := ⟨_, rfl⟩
  obtain ⟨y, hc⟩ := hh
  obtain ⟨h, hh, hhy⟩ := exists_off w.pos s (y % t.bucket) (Nat.mod_lt _ w.pos)
  have c1 := (code_iff A hh hhy hp hf).1 hc
  have c2 := (code_iff A hh hhy hq hqf).1 (hc.trans e.symm)
  rcases Nat.lt_trichotomy q p with hlt | heq | hgt
  · exact absurd (c2.1.trans c1.1.symm) (A.lay.uniq q p hlt hp hqf hf (by omega))
  · exact heq
  · exact absurd (c1.1.trans c2.1.symm) (A.lay.uniq p q hgt hq hf hqf (by omega))

/-- The occupied homes in `(a, n)`, as slots of the table. -/
def queue (kb : Nat) (t : Tab) (s a n : Nat) : List Nat :=
  ((List.range n).filter (fun g => decide (a < g) && (view kb t s g).occ)).map (fun g => (s + g) % t.bucket)

theorem queue_succ (a n : Nat) : queue kb t s a (n + 1) = queue kb t s a n ++ (if a < n ∧ (view kb t s n).occ = true then [(s + n) % t.bucket] else []) := by
  unfold queue
  rw [List.range_succ, List.filter_append, List.map_append]
  congr 1
  by_cases h : a < n ∧ (view kb t s n).occ = true
  · rw [if_pos h]
    simp [h.1, h.2]
  · rw [if_neg h]
    have : (decide (a < n) && (view kb t s n).occ) = false := by
      cases h1 : (decide (a < n) && (view kb t s n).occ) with
      | false => rfl
      | true =>
        simp only [Bool.and_eq_true, decide_eq_true_eq] at h1
        exact absurd h1 h
    simp [this]

theorem queue_nil {a : Nat} : ∀ {n : Nat}, (∀ g, a < g → g < n → (view kb t s g).occ = false) → queue kb t s a n = []
  | 0, _ => rfl
  | n + 1, h => by
    rw [queue_succ, queue_nil (fun g h1 h2 => h g h1 (by omega)), if_neg]
    · rfl
    · rintro ⟨h1, h2⟩
      rw [h n h1 (by omega)] at h2
      simp at h2

theorem queue_cons {a b : Nat} (hab : a < b) (ho : (view kb t s b).occ = true) : ∀ {n : Nat}, b < n → (∀ g, a < g → g < b → (view kb t s g).occ = false) →
    queue kb t s a n = (s + b) % t.bucket :: queue kb t s b n
  | 0, h, _ => by omega
  | n + 1, h, hno => by
    by_cases hb : b = n
    · subst hb
      rw [queue_succ, queue_nil (fun g h1 h2 => hno g h1 h2), if_pos ⟨hab, ho⟩, queue_nil (fun g h1 h2 => by omega)]
      rfl
    · rw [queue_succ, queue_succ, queue_cons hab ho (show b < n by omega) hno]
      simp [show a < n by omega, show b < n by omega]

/-- The queue after slot `p`. -/
theorem pop_spec (L : Lay t.bucket (view kb t s) home) {p : Nat} (hp : p < t.bucket) (hf : (view kb t s p).fil) {x : Nat}
    (ho : isOcc x = (view kb t s p).occ) (hc : isCont x = (view kb t s p).cont) {qs : List Nat} {f : Option Nat}
    (hpre : ((view kb t s p).sh = false ∧ qs = []) ∨
      (∃ p', p = p' + 1 ∧ (view kb t s p').fil ∧ (view kb t s p).sh = true ∧ f = some ((s + home p') % t.bucket) ∧ qs = queue kb t s (home p') p)) :
    pop x ((s + p) % t.bucket) qs f = some (some ((s + home p) % t.bucket), queue kb t s (home p) (p + 1)) := by
  have hle := L.le p hp hf
  unfold pop
  rw [ho, hc]
  rcases hpre with ⟨h1, h2⟩ | ⟨p', rfl, hf', h1, h2, h3⟩
  · have hhome : home p = p := by
      by_contra hne
      have := (L.sh p hp).2 ⟨hf, by omega⟩
      rw [h1] at this
      simp at this
    have hocc : (view kb t s p).occ = true := (L.occ p hp).2 ⟨p, hp, hf, hhome⟩
    have hcont : (view kb t s p).cont = false := by
      cases hcc : (view kb t s p).cont with
      | false => rfl
      | true =>
        by_cases h0 : p = 0
        · rw [h0, L.cont0] at hcc; simp at hcc
        · obtain ⟨g1, g2, g3⟩ := (L.cont (p - 1) (by omega)).1 (by rw [show p - 1 + 1 = p by omega]; exact hcc)
          rw [show p - 1 + 1 = p by omega] at g3
          have := L.le (p - 1) (by omega) g1
          omega
    rw [hocc, hcont, h2, hhome, queue_nil (fun g g1 g2 => by omega)]
    rfl
  · have hm := L.mono p' (p' + 1) (by omega) hp hf' hf
    have hlt : home (p' + 1) < p' + 1 := ((L.sh _ hp).1 h1).2
    have hle' := L.le p' (by omega) hf'
    have hq : (if (view kb t s (p' + 1)).occ = true then qs ++ [(s + (p' + 1)) % t.bucket] else qs) = queue kb t s (home p') (p' + 1 + 1) := by
      rw [queue_succ, h3]
      by_cases hoc : (view kb t s (p' + 1)).occ = true
      · rw [if_pos hoc, if_pos ⟨by omega, hoc⟩]
      · rw [if_neg hoc, if_neg (fun h => hoc h.2), List.append_nil]
    simp only [hq]
    have hcont := L.cont p' hp
    by_cases hcc : (view kb t s (p' + 1)).cont = true
    · rw [if_pos hcc, h2, (hcont.1 hcc).2.2]
    · rw [if_neg hcc]
      have hne : home p' ≠ home (p' + 1) := fun e => hcc (hcont.2 ⟨hf', hf, e⟩)
      rw [queue_cons (b := home (p' + 1)) (by omega) (L.occ_home hp hf) (by omega)]
      intro g g1 g2
      by_contra hg
      obtain ⟨q, q1, q2, q3⟩ := (L.occ g (by omega)).1 (by simpa using hg)
      by_cases hqp : q ≤ p'
      · have := L.mono q p' hqp (by omega) q2 hf'
        omega
      · have := L.mono (p' + 1) q (by omega) q1 hf q2
        omega

/-- `nx` holds the elements of the slots below `p` without a mark. -/
def Part (P : Par) (kb vw : Nat) (t : Tab) (s : Nat) (home : Nat → Nat) (Q : Tab → Prop) (p : Nat) (nx : Tab) : Prop :=
  ∃ M', Inv P kb vw nx M' ∧ Q nx ∧ nx.used = live (view kb t s) p ∧
    ∀ k, k < 2 ^ kb → ∀ v, M' k = some v ↔ ∃ q, q < p ∧ (view kb t s q).lv ∧ P.hash kb k = some (code kb t s home q) ∧ vals vw t s q = v

/-- What the copying needs from `set`. -/
def SetOk (P : Par) (kb vw n : Nat) (Q : Tab → Prop) (setF : Tab → Nat → Nat → Option Tab) : Prop :=
  ∀ nx M' k v, Inv P kb vw nx M' → Q nx → nx.used < n → k < 2 ^ kb → v < 2 ^ vw → M' k = none →
    ∃ nx', setF nx k v = some nx' ∧ Inv P kb vw nx' (upd M' k v) ∧ Q nx' ∧ nx'.used = nx.used + 1

theorem copyOne_spec (G : Good P kb) (w : WT kb vw t) (A : At P kb vw t M s home) {Q : Tab → Prop} {setF : Tab → Nat → Nat → Option Tab} (hset : SetOk P kb vw (lcount kb t) Q setF)
    {p : Nat} (hp : p < t.bucket) (hf : (view kb t s p).fil) {nx : Tab} (hpart : Part P kb vw t s home Q p nx) {x : Nat} (hd : isDel x = (view kb t s p).del)
    (hq : t.quo x = (view kb t s p).quo) :
    ∃ nx', t.copyOne P setF x ((s + p) % t.bucket) (some ((s + home p) % t.bucket)) nx = some nx' ∧ Part P kb vw t s home Q (p + 1) nx' := by
  by_cases hdel : (view kb t s p).del = true
  · refine ⟨nx, ?_, ?_⟩
    · unfold Tab.copyOne
      rw [hd, hdel]
      rfl
    · obtain ⟨M', I, q1, h1, h2⟩ := hpart
      have hnl : ¬ (view kb t s p).lv := fun h => by rw [h.2] at hdel; simp at hdel
      refine ⟨M', I, q1, by rw [live, if_neg hnl, h1]; rfl, fun k hk v => ?_⟩
      rw [h2 k hk v]
      constructor
      · rintro ⟨q, c1, c2⟩
        exact ⟨q, by omega, c2⟩
      · rintro ⟨q, c1, c2⟩
        by_cases hqp : q = p
        · rw [hqp] at c2
          exact absurd c2.1 hnl
        · exact ⟨q, by omega, c2⟩
  have hdel : (view kb t s p).del = false := by simpa using hdel
  have hl : (view kb t s p).lv := ⟨hf, hdel⟩
  obtain ⟨M', I, q1, h1, h2⟩ := hpart
  obtain ⟨k, hk, e1, e2⟩ := G.bwd _ (A.range p hp hf)
  have hnone : M' k = none := by
    cases h : M' k with
    | none => rfl
    | some v =>
      obtain ⟨q, g1, g2, g3, _⟩ := (h2 k hk v).1 h
      rw [e2] at g3
      have := A.code_inj w hp (show q < t.bucket by omega) hf g2.1 (Option.some.inj g3).symm
      omega
  have hlt : live (view kb t s) p < lcount kb t := by
    have := live_mono (view kb t s) (show p + 1 ≤ t.bucket by omega)
    rw [live, if_pos hl, lcount_eq] at this
    omega
  obtain ⟨nx', g1, g2, g3, g4⟩ := hset nx M' k (vals vw t s p) I q1 (by omega) hk (val_lt _) hnone
  refine ⟨nx', ?_, upd M' k (vals vw t s p), g2, g3, ?_, ?_⟩
  · unfold Tab.copyOne
    rw [hd, hdel]
    simp only [Bool.false_eq_true, if_false, Option.bind_eq_bind, Option.bind_some, w.keyBits, hq]
    have : ((view kb t s p).quo <<< t.bucketBits ||| (s + home p) % t.bucket) = code kb t s home p := by
      rw [← Nat.shiftLeft_add_eq_or_of_lt (by rw [← w.bucket]; exact idx_lt w _), Nat.shiftLeft_eq, ← w.bucket]
      rfl
    rw [this, e1, Option.bind_some, get_val w (idx_lt w _), Option.bind_some]
    exact g1
  · rw [g4, h1, live, if_pos hl]
  · intro k' hk' v'
    unfold upd
    by_cases hkk : k' = k
    · subst hkk
      rw [if_pos rfl]
      constructor
      · intro h
        exact ⟨p, by omega, hl, e2, Option.some.inj h⟩
      · rintro ⟨q, c1, c2, c3, c4⟩
        rw [e2] at c3
        have := A.code_inj w hp (show q < t.bucket by omega) hf c2.1 (Option.some.inj c3).symm
        rw [this] at c4
        rw [c4]
    · rw [if_neg hkk, h2 k' hk' v']
      constructor
      · rintro ⟨q, c1, c2⟩
        exact ⟨q, by omega, c2⟩
      · rintro ⟨q, c1, c2, c3, c4⟩
        by_cases hqp : q = p
        · rw [hqp, ← e2] at c3
          exact absurd (G.inj hk' hk c3) hkk
        · exact ⟨q, by omega, c2, c3, c4⟩

theorem cluster_spec (G : Good P kb) (w : WT kb vw t) (A : At P kb vw t M s home) {Q : Tab → Prop} {setF : Tab → Nat → Nat → Option Tab} (hset : SetOk P kb vw (lcount kb t) Q setF) :
    ∀ (n p c0 : Nat) (qs : List Nat) (f : Option Nat) (nx : Tab), t.bucket ≤ p + n → p < t.bucket → (view kb t s p).fil → Part P kb vw t s home Q p nx →
      (((view kb t s p).sh = false ∧ qs = []) ∨
        (∃ p', p = p' + 1 ∧ (view kb t s p').fil ∧ (view kb t s p).sh = true ∧ f = some ((s + home p') % t.bucket) ∧ qs = queue kb t s (home p') p)) →
      ∃ e nx', p < e ∧ e ≤ t.bucket ∧ t.cluster P setF n ((s + p) % t.bucket) c0 qs f nx = some ((s + e) % t.bucket, c0 + (e - p), nx') ∧
        Part P kb vw t s home Q e nx' ∧ (view kb t s e).sh = false ∧ ∀ q, p ≤ q → q < e → (view kb t s q).fil := by
  have L := A.lay
  have hsh0 : (view kb t s 0).sh = false := by
    cases h : (view kb t s 0).sh with
    | false => rfl
    | true =>
      have := ((L.sh 0 w.pos).1 h).2
      omega
  intro n
  induction n with
  | zero => intro p c0 qs f nx h1 h2; omega
  | succ n ih =>
    intro p c0 qs f nx hn hp hf hpart hpre
    obtain ⟨x, hx, ho, hc, _, hd, hq, _⟩ := read_view w s p
    obtain ⟨nx', e1, hpart'⟩ := copyOne_spec G w A hset hp hf hpart hd hq
    obtain ⟨x1, hx1, _, _, hs1, _⟩ := read_view w s (p + 1)
    simp only [Tab.cluster, hx, Option.bind_eq_bind, Option.bind_some, Option.pure_def, pop_spec L hp hf ho hc hpre, e1, succ_idx w]
    rw [Nat.add_assoc, hx1, Option.bind_some, hs1]
    by_cases hsh : (view kb t s (p + 1)).sh = true
    · rw [if_pos hsh]
      have hpB : p + 1 < t.bucket := by
        by_contra hlt
        rw [show p + 1 = 0 + t.bucket by omega, view_per, hsh0] at hsh
        simp at hsh
      have hf1 := ((L.sh _ hpB).1 hsh).1
      obtain ⟨e, nx'', g1, g2, g3, g4, g5, g6⟩ := ih (p + 1) (c0 + 1) (queue kb t s (home p) (p + 1)) (some ((s + home p) % t.bucket)) nx' (by omega) hpB hf1 hpart'
        (.inr ⟨p, rfl, hf, hsh, rfl, rfl⟩)
      refine ⟨e, nx'', by omega, g2, ?_, g4, g5, ?_⟩
      · rw [g3, show c0 + 1 + (e - (p + 1)) = c0 + (e - p) by omega]
      · intro q h1 h2
        by_cases hqp : q = p
        · rw [hqp]; exact hf
        · exact g6 q (by omega) h2
    · rw [if_neg hsh]
      refine ⟨p + 1, nx', by omega, by omega, ?_, hpart', by simpa using hsh, ?_⟩
      · rw [show c0 + (p + 1 - p) = c0 + 1 by omega]
      · intro q h1 h2
        rw [show q = p by omega]
        exact hf

theorem skip_spec (w : WT kb vw t) {q : Nat} (hq : (view kb t s q).occ = true ∧ (view kb t s q).sh = false) : ∀ (d p n : Nat), p + d = q → d < n →
    (∀ g, p ≤ g → g < q → ¬ ((view kb t s g).occ = true ∧ (view kb t s g).sh = false)) → t.skip n ((s + p) % t.bucket) = some ((s + q) % t.bucket) := by
  intro d
  induction d with
  | zero =>
    intro p n hp hn _
    obtain ⟨n, rfl⟩ : ∃ m, n = m + 1 := ⟨n - 1, by omega⟩
    obtain ⟨x, hx, ho, _, hs, _⟩ := read_view w s p
    have : p = q := by omega
    subst this
    simp only [Tab.skip, hx, Option.bind_eq_bind, Option.bind_some, Option.pure_def, ho, hs, hq.1, hq.2, Bool.not_false, Bool.and_self, if_true]
  | succ d ih =>
    intro p n hp hn hall
    obtain ⟨n, rfl⟩ : ∃ m, n = m + 1 := ⟨n - 1, by omega⟩
    obtain ⟨x, hx, ho, _, hs, _⟩ := read_view w s p
    simp only [Tab.skip, hx, Option.bind_eq_bind, Option.bind_some, Option.pure_def, ho, hs]
    rw [if_neg]
    · rw [succ_idx w, Nat.add_assoc]
      exact ih (p + 1) n (by omega) (by omega) (fun g h1 h2 => hall g (by omega) h2)
    · intro h
      simp only [Bool.and_eq_true, Bool.not_eq_true'] at h
      exact hall p (Nat.le_refl _) (by omega) h

theorem filled_all {f : Nat → Slot} {p : Nat} : ∀ {d : Nat}, (∀ q, p ≤ q → q < p + d → (f q).fil) → filled f (p + d) = filled f p + d
  | 0, _ => rfl
  | d + 1, h => by
    rw [← Nat.add_assoc, filled, filled_all (fun q h1 h2 => h q h1 (by omega)), if_pos (h _ (by omega) (by omega))]
    omega

theorem filled_none {f : Nat → Slot} {p : Nat} : ∀ {d : Nat}, (∀ q, p ≤ q → q < p + d → ¬ (f q).fil) → filled f (p + d) = filled f p
  | 0, _ => rfl
  | d + 1, h => by
    rw [← Nat.add_assoc, filled, filled_none (fun q h1 h2 => h q h1 (by omega)), if_neg (h _ (by omega) (by omega))]
    omega

theorem live_none {f : Nat → Slot} {p : Nat} : ∀ {d : Nat}, (∀ q, p ≤ q → q < p + d → ¬ (f q).fil) → live f (p + d) = live f p
  | 0, _ => rfl
  | d + 1, h => by
    rw [← Nat.add_assoc, live, live_none (fun q h1 h2 => h q h1 (by omega)), if_neg (fun hl => h _ (by omega) (by omega) hl.1)]
    omega

theorem Part.mono {Q : Tab → Prop} {p q : Nat} {nx : Tab} (h : Part P kb vw t s home Q p nx) (hpq : p ≤ q) (hno : ∀ g, p ≤ g → g < q → ¬ (view kb t s g).fil) : Part P kb vw t s home Q q nx := by
  obtain ⟨M', h1, h2, h3, h4⟩ := h
  refine ⟨M', h1, h2, ?_, ?_⟩
  · obtain ⟨d, rfl⟩ : ∃ d, q = p + d := ⟨q - p, by omega⟩
    rw [h3, live_none hno]
  · intro k hk v
    rw [h4 k hk v]
    constructor
    · rintro ⟨g, g1, g2⟩; exact ⟨g, by omega, g2⟩
    · rintro ⟨g, g1, g2, g3⟩
      by_cases hg : g < p
      · exact ⟨g, hg, g2, g3⟩
      · exact absurd g2.1 (hno g (by omega) g1)

/-- The first filled slot behind an unshifted slot is its own home. -/
theorem Lay.first (L : Lay t.bucket (view kb t s) home) {p : Nat} (hsh : (view kb t s p).sh = false) (h : ∃ q, p ≤ q ∧ q < t.bucket ∧ (view kb t s q).fil) :
    ∃ q, p ≤ q ∧ q < t.bucket ∧ (view kb t s q).fil ∧ (view kb t s q).occ = true ∧ (view kb t s q).sh = false ∧ ∀ g, p ≤ g → g < q → ¬ (view kb t s g).fil := by
  obtain ⟨q, h1, h2, h3, h4⟩ : ∃ q, p ≤ q ∧ q < t.bucket ∧ (view kb t s q).fil ∧ ∀ g, p ≤ g → g < q → ¬ (view kb t s g).fil := by
    obtain ⟨q, h1, h2, h3⟩ := h
    induction q using Nat.strongRecOn with
    | ind q ih =>
      by_cases hall : ∀ g, p ≤ g → g < q → ¬ (view kb t s g).fil
      · exact ⟨q, h1, h2, h3, hall⟩
      · push Not at hall
        obtain ⟨g, g1, g2, g3⟩ := hall
        exact ih g g2 g1 (by omega) g3
  have hnsh : (view kb t s q).sh = false := by
    by_contra hs
    have hs' : (view kb t s q).sh = true := by simpa using hs
    have hlt := ((L.sh q h2).1 hs').2
    by_cases hqp : q = p
    · rw [hqp, hsh] at hs'; simp at hs'
    · exact h4 (q - 1) (by omega) (by omega) (L.between q h2 h3 (q - 1) (by omega) (by omega))
  have hhome : home q = q := by
    have := L.le q h2 h3
    by_contra hne
    have := (L.sh q h2).2 ⟨h3, by omega⟩
    rw [hnsh] at this
    simp at this
  exact ⟨q, h1, h2, h3, (L.occ q h2).2 ⟨q, h2, h3, hhome⟩, hnsh, h4⟩

theorem clusters_spec (G : Good P kb) (w : WT kb vw t) (A : At P kb vw t M s home) {Q : Tab → Prop} {setF : Tab → Nat → Nat → Option Tab} (hset : SetOk P kb vw (lcount kb t) Q setF) :
    ∀ (n p c0 : Nat) (nx : Tab), t.used ≤ c0 + n → p ≤ t.bucket → (view kb t s p).sh = false → c0 = filled (view kb t s) p → Part P kb vw t s home Q p nx →
      ∃ nx', t.clusters P setF n ((s + p) % t.bucket) c0 nx = some nx' ∧ Part P kb vw t s home Q t.bucket nx' := by
  have L := A.lay
  have hend : ∀ p c0 nx, ¬ c0 < t.used → p ≤ t.bucket → c0 = filled (view kb t s) p → Part P kb vw t s home Q p nx → Part P kb vw t s home Q t.bucket nx := by
    intro p c0 nx h1 h2 h3 h4
    refine h4.mono h2 (fun g g1 g2 => filled_full (p := p) (n := t.bucket) ?_ g1 g2)
    rw [← A.count]
    omega
  intro n
  induction n with
  | zero =>
    intro p c0 nx h1 h2 h3 h4 h5
    have hc : ¬ c0 < t.used := by omega
    rw [Tab.clusters, if_neg hc]
    exact ⟨nx, rfl, hend p c0 nx hc h2 h4 h5⟩
  | succ n ih =>
    intro p c0 nx h1 h2 h3 h4 h5
    rw [Tab.clusters]
    by_cases hc : c0 < t.used
    · rw [if_pos hc]
      have hex : ∃ q, p ≤ q ∧ q < t.bucket ∧ (view kb t s q).fil := by
        by_contra hno
        push Not at hno
        have := filled_none (f := view kb t s) (p := p) (d := t.bucket - p) (fun q g1 g2 => hno q g1 (by omega))
        rw [show p + (t.bucket - p) = t.bucket by omega, ← A.count] at this
        omega
      obtain ⟨q, q1, q2, q3, q4, q5, q6⟩ := L.first h3 hex
      rw [skip_spec w ⟨q4, q5⟩ (q - p) p t.bucket (by omega) (by omega) (fun g g1 g2 h => q6 g g1 g2 (.inl h.1))]
      obtain ⟨e, nx', e1, e2, e3, e4, e5, e6⟩ := cluster_spec G w A hset t.bucket q c0 [] none nx (by omega) q2 q3 (h5.mono q1 q6) (.inl ⟨q5, rfl⟩)
      simp only [Option.bind_eq_bind, Option.bind_some, e3]
      refine ih e (c0 + (e - q)) nx' (by omega) e2 e5 ?_ e4
      obtain ⟨d, rfl⟩ : ∃ d, q = p + d := ⟨q - p, by omega⟩
      obtain ⟨d', rfl⟩ : ∃ d', e = p + d + d' := ⟨e - (p + d), by omega⟩
      rw [filled_all e6, filled_none q6]
      omega
    · rw [if_neg hc]
      exact ⟨nx, rfl, hend p c0 nx hc h2 h4 h5⟩

/-- The table seen from the first home that is its own slot: there the copying starts. -/
theorem At.begin (w : WT kb vw t) (A : At P kb vw t M s home) : ∃ s home, At P kb vw t M s home ∧
    (0 < t.used → t.skip t.bucket 0 = some (s % t.bucket) ∧ t.skip t.bucket (s % t.bucket) = some (s % t.bucket)) := by
  have hB := w.pos
  by_cases hu0 : 0 < t.used
  · have hsh0 : (view kb t s 0).sh = false := by
      cases h : (view kb t s 0).sh with
      | false => rfl
      | true =>
        have := ((A.lay.sh 0 hB).1 h).2
        omega
    have hex : ∃ q, 0 ≤ q ∧ q < t.bucket ∧ (view kb t s q).fil := by
      by_contra hno
      push Not at hno
      have := filled_none (f := view kb t s) (p := 0) (d := t.bucket) (fun q g1 g2 => hno q g1 (by omega))
      rw [Nat.zero_add, ← A.count] at this
      simp only [filled] at this
      omega
    obtain ⟨q, _, q2, _, q4, q5, _⟩ := A.lay.first hsh0 hex
    -- the least slot, as the code counts
    have hlow : ∃ g, g < t.bucket ∧ ((view kb t 0 g).occ = true ∧ (view kb t 0 g).sh = false) ∧ ∀ g', 0 ≤ g' → g' < g → ¬ ((view kb t 0 g').occ = true ∧ (view kb t 0 g').sh = false) := by
      have h0 : (view kb t 0 ((s + q) % t.bucket)) = view kb t s q := by
        unfold view
        rw [Nat.zero_add, Nat.mod_mod]
      have hg : ∃ g, g < t.bucket ∧ ((view kb t 0 g).occ = true ∧ (view kb t 0 g).sh = false) := ⟨(s + q) % t.bucket, idx_lt w _, by rw [h0]; exact ⟨q4, q5⟩⟩
      obtain ⟨g, g1, g2⟩ := hg
      induction g using Nat.strongRecOn with
      | ind g ih =>
        by_cases hall : ∀ g', 0 ≤ g' → g' < g → ¬ ((view kb t 0 g').occ = true ∧ (view kb t 0 g').sh = false)
        · exact ⟨g, g1, g2, hall⟩
        · push Not at hall
          obtain ⟨g', _, h2, h3, h4⟩ := hall
          exact ih g' h2 (by omega) ⟨h3, by simpa using h4⟩
    obtain ⟨g, g1, g2, g3⟩ := hlow
    obtain ⟨c, hc, hcg⟩ := exists_off hB s g g1
    have hvc : view kb t s c = view kb t 0 g := by
      unfold view
      rw [hcg, Nat.zero_add, Nat.mod_eq_of_lt g1]
    refine ⟨s + c, rotHome t.bucket home c, A.rotate w hc (by rw [hvc]; exact g2.2), ?_⟩
    intro _
    rw [hcg]
    have hs0 := skip_spec w g2 g 0 t.bucket (by omega) g1 g3
    have hsg := skip_spec w g2 0 g t.bucket (by omega) (by omega) (fun _ _ _ => by omega)
    rw [Nat.zero_add, Nat.zero_add, Nat.zero_mod, Nat.mod_eq_of_lt g1] at hs0
    rw [Nat.zero_add, Nat.mod_eq_of_lt g1] at hsg
    exact ⟨hs0, hsg⟩
  · exact ⟨s, home, A, fun h => absurd h hu0⟩

/-- The elements without a mark. -/
def LiveMap (P : Par) (kb vw : Nat) (t : Tab) (s : Nat) (home : Nat → Nat) (M' : Nat → Option Nat) : Prop :=
  ∀ k, k < 2 ^ kb → ∀ v, M' k = some v ↔ ∃ q, q < t.bucket ∧ (view kb t s q).lv ∧ P.hash kb k = some (code kb t s home q) ∧ vals vw t s q = v

/-- Copying all elements without a mark into an empty table. -/
theorem copy_live (G : Good P kb) (w : WT kb vw t) (A : At P kb vw t M s home) {Q : Tab → Prop} {setF : Tab → Nat → Nat → Option Tab} (hset : SetOk P kb vw (lcount kb t) Q setF)
    {nx : Tab} (hnx : Inv P kb vw nx (fun _ => none)) (hQ : Q nx) (hu : nx.used = 0) :
    ∃ t' M' s home, t.clusters P setF t.used 0 0 nx = some t' ∧ Inv P kb vw t' M' ∧ Q t' ∧ t'.used = lcount kb t ∧ At P kb vw t M s home ∧ LiveMap P kb vw t s home M' := by
  have hB := w.pos
  obtain ⟨s, home, A, hstart⟩ := A.begin w
  have hsh0 : (view kb t s 0).sh = false := by
    cases h : (view kb t s 0).sh with
    | false => rfl
    | true =>
      have := ((A.lay.sh 0 hB).1 h).2
      omega
  have hpart : Part P kb vw t s home Q 0 nx := by
    refine ⟨_, hnx, hQ, hu, ?_⟩
    intro k _ v
    simp
  obtain ⟨t', e1, M', h1, h2, h3, h4⟩ := clusters_spec G w A hset t.used 0 0 nx (by omega) (by omega) hsh0 rfl hpart
  refine ⟨t', M', s, home, ?_, h1, h2, by rw [h3, lcount_eq], A, h4⟩
  rw [← e1]
  rcases Nat.eq_zero_or_pos t.used with h0 | hpos
  · rw [h0]; rfl
  · obtain ⟨h5, h6⟩ := hstart hpos
    obtain ⟨n, hn⟩ : ∃ n, t.used = n + 1 := ⟨t.used - 1, by omega⟩
    have : ∀ i, t.skip t.bucket i = some (s % t.bucket) → t.clusters P setF t.used i 0 nx =
        (t.cluster P setF t.bucket (s % t.bucket) 0 [] none nx).bind (fun r => t.clusters P setF n r.1 r.2.1 r.2.2) := by
      intro i hi
      rw [hn, Tab.clusters, if_pos (by omega), hi]
      rfl
    rw [this 0 h5, Nat.add_zero, this (s % t.bucket) h6]

theorem Inv.lcount (I : Inv P kb vw t M) : CHT.lcount kb t = t.used := by
  obtain ⟨s, home, A⟩ := I.has
  rw [← lcount_eq s, A.count]
  exact live_eq_filled (fun q _ => I.noDel.view I.wt.pos s q)

/-- Copying all elements into an empty table. -/
theorem copy_spec (G : Good P kb) (I : Inv P kb vw t M) {Q : Tab → Prop} {setF : Tab → Nat → Nat → Option Tab} (hset : SetOk P kb vw t.used Q setF)
    {nx : Tab} (hnx : Inv P kb vw nx (fun _ => none)) (hQ : Q nx) (hu : nx.used = 0) :
    ∃ t', t.clusters P setF t.used 0 0 nx = some t' ∧ Inv P kb vw t' M ∧ Q t' ∧ t'.used = t.used := by
  obtain ⟨s, home, A⟩ := I.has
  obtain ⟨t', M', s, home, h0, h1, h2, h3, A, h4⟩ := copy_live G I.wt A (by rw [I.lcount]; exact hset) hnx hQ hu
  refine ⟨t', h0, h1.congr ?_, h2, by rw [h3, I.lcount]⟩
  intro k hk
  have hiff : ∀ v, M k = some v ↔ M' k = some v := fun v => by
    rw [A.has k hk v, h4 k hk v]
    simp only [Slot.lv, I.noDel.view I.wt.pos s, and_true]
  cases h : M' k with
  | some v => exact (hiff v).2 h
  | none =>
    cases h' : M k with
    | none => rfl
    | some v => rw [(hiff v).1 h'] at h; simp at h

end Verif.CHT

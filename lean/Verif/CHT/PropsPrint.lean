/-
Property theorems C90 (CHT::print_for_debug).
-/
import Verif.CHT.Print
import Verif.CHT.PropsSafe
import Verif.CHT.PropsRoom
import Mathlib.Data.List.Dedup
import Mathlib.Data.List.Perm.Basic

namespace Verif.CHT
open Verif.Bits

variable {P : Par} {kb vw : Nat} {t : Tab} {M : Nat → Option Nat} {s : Nat} {home : Nat → Nat}

/-- How many of the numbers below `B` have the property. -/
def countB (g : Nat → Bool) (B : Nat) : Nat := ((List.range B).filter g).length

theorem filled_count (f : Nat → Slot) : ∀ n, filled f n = countB (fun p => decide (f p).fil) n
  | 0 => rfl
  | n + 1 => by
    rw [filled, filled_count f n, countB, countB, List.range_succ, List.filter_append, List.length_append]
    by_cases h : (f n).fil <;> simp [h]

theorem rotate_perm {B s : Nat} (hB : 0 < B) : ((List.range B).map (fun p => (s + p) % B)).Perm (List.range B) := by
  refine (List.perm_ext_iff_of_nodup ?_ List.nodup_range).2 ?_
  · refine (List.nodup_map_iff_inj_on List.nodup_range).2 ?_
    intro x hx y hy e
    rw [List.mem_range] at hx hy
    have h1 := Nat.div_add_mod (s + x) B
    have h2 := Nat.div_add_mod (s + y) B
    have h3 : (s + x) / B = (s + y) / B ∨ (s + x) / B < (s + y) / B ∨ (s + y) / B < (s + x) / B := by omega
    rcases h3 with h | h | h
    · rw [h, e] at h1
      omega
    · have := Nat.mul_le_mul_left B (show (s + x) / B + 1 ≤ (s + y) / B from h)
      rw [Nat.mul_add, Nat.mul_one] at this
      omega
    · have := Nat.mul_le_mul_left B (show (s + y) / B + 1 ≤ (s + x) / B from h)
      rw [Nat.mul_add, Nat.mul_one] at this
      omega
  · intro i
    simp only [List.mem_map, List.mem_range]
    constructor
    · rintro ⟨p, _, rfl⟩
      exact Nat.mod_lt _ hB
    · intro hi
      refine ⟨(i + (B - s % B)) % B, Nat.mod_lt _ hB, ?_⟩
      have hs := Nat.mod_lt s hB
      rw [Nat.add_mod_mod]
      have h1 := Nat.div_add_mod s B
      rw [show s + (i + (B - s % B)) = i + B * (s / B + 1) by rw [Nat.mul_add, Nat.mul_one]; omega, Nat.add_mul_mod_self_left, Nat.mod_eq_of_lt hi]

theorem countB_rotate {B s : Nat} (hB : 0 < B) (g : Nat → Bool) : countB (fun p => g ((s + p) % B)) B = countB g B := by
  have h := ((rotate_perm (s := s) hB).filter g).length_eq
  rw [List.filter_map, List.length_map] at h
  exact h

/-- As many homes are occupied as there are starts of runs. -/
theorem Lay.runs {B : Nat} {f : Nat → Slot} (L : Lay B f home) : countB (fun p => (f p).occ) B + countB (fun p => (f p).cont) B = countB (fun p => decide (f p).fil) B := by
  have h1 : countB (fun p => (f p).occ) B = countB (fun p => decide ((f p).fil ∧ (f p).cont = false)) B := by
    unfold countB
    rw [← List.length_map (f := home) (as := (List.range B).filter (fun p => decide ((f p).fil ∧ (f p).cont = false)))]
    refine List.Perm.length_eq ((List.perm_ext_iff_of_nodup (List.nodup_range.filter _) ?_).2 ?_)
    · refine (List.nodup_map_iff_inj_on (List.nodup_range.filter _)).2 ?_
      have key : ∀ p q, p < q → q < B → (f p).fil → (f q).fil → (f q).cont = false → home p = home q → False := by
        intro p q hpq hq hp hfq hc e
        have hle := L.le p (by omega) hp
        have hb : (f (q - 1)).fil := L.between q hq hfq (q - 1) (by omega) (by omega)
        have m1 := L.mono p (q - 1) (by omega) (by omega) hp hb
        have m2 := L.mono (q - 1) q (by omega) hq hb hfq
        have := (L.cont (q - 1) (by omega)).2
        rw [show q - 1 + 1 = q by omega] at this
        rw [this ⟨hb, hfq, by omega⟩] at hc
        exact absurd hc (by simp)
      intro p hp q hq e
      simp only [List.mem_filter, List.mem_range, decide_eq_true_eq] at hp hq
      rcases Nat.lt_trichotomy p q with h | h | h
      · exact (key p q h hq.1 hp.2.1 hq.2.1 hq.2.2 e).elim
      · exact h
      · exact (key q p h hp.1 hq.2.1 hp.2.1 hp.2.2 e.symm).elim
    · intro h
      simp only [List.mem_filter, List.mem_range, List.mem_map, decide_eq_true_eq]
      constructor
      · rintro ⟨hh, ho⟩
        obtain ⟨i, H⟩ := exists_head (f := f) (home := home) h hh
        obtain ⟨g1, g2, g3⟩ := H.occ L hh ho
        refine ⟨i, ⟨g1, g2, ?_⟩, g3⟩
        cases i with
        | zero => exact L.cont0
        | succ i =>
          by_contra hc
          obtain ⟨k1, _, k2⟩ := (L.cont i g1).1 (by simpa using hc)
          have := H.before L k1 (by omega)
          omega
      · rintro ⟨p, ⟨hp, hf, _⟩, rfl⟩
        have := L.le p hp hf
        exact ⟨by omega, L.occ_home hp hf⟩
  rw [h1]
  unfold countB
  rw [← List.length_append]
  have hc : ∀ p, p < B → (f p).cont = true → (f p).fil := fun p _ h => .inr (.inl h)
  clear h1
  have : ∀ l : List Nat, ((l.filter (fun p => decide ((f p).fil ∧ (f p).cont = false))) ++ l.filter (fun p => (f p).cont)).length =
      (l.filter (fun p => decide (f p).fil)).length := by
    intro l
    induction l with
    | nil => rfl
    | cons x l ih =>
      rw [List.length_append] at ih ⊢
      by_cases h : (f x).cont = true
      · have hf : (f x).fil := .inr (.inl h)
        simp [h, hf]
        simp at ih
        omega
      · by_cases hf : (f x).fil <;> simp [h, hf] <;> simp at ih <;> omega
  exact this _

/-- The slots in use and the keys in the table correspond. -/
theorem At.keys (G : Good P kb) (A : At P kb vw t M s home) (ks : List Nat) (hn : ks.Nodup) (hk : ∀ k, k ∈ ks ↔ k < 2 ^ kb ∧ M k ≠ none) :
    ks.length = countB (fun p => decide (view kb t s p).fil) t.bucket := by
  have L := A.lay
  have inj : ∀ p q, p < q → q < t.bucket → (view kb t s p).fil → (view kb t s q).fil → code kb t s home p ≠ code kb t s home q := by
    intro p q hpq hq hp hfq e
    have h1 := L.le p (by omega) hp
    have h2 := L.le q hq hfq
    unfold code at e
    have hm1 := Nat.mod_lt (s + home p) (show 0 < t.bucket by omega)
    have hm2 := Nat.mod_lt (s + home q) (show 0 < t.bucket by omega)
    have hq' : (view kb t s p).quo = (view kb t s q).quo := by
      have := congrArg (· / t.bucket) e
      beta_reduce at this
      rw [Nat.mul_comm, Nat.mul_add_div (by omega), Nat.div_eq_of_lt hm1, Nat.mul_comm, Nat.mul_add_div (by omega), Nat.div_eq_of_lt hm2] at this
      omega
    have hh : (s + home p) % t.bucket = (s + home q) % t.bucket := by
      rw [hq'] at e
      omega
    refine L.uniq p q hpq hq hp hfq ?_ hq'
    have hn := (List.nodup_map_iff_inj_on List.nodup_range).1 ((rotate_perm (s := s) (show 0 < t.bucket by omega)).nodup_iff.2 List.nodup_range)
    exact hn _ (List.mem_range.2 (by omega)) _ (List.mem_range.2 (by omega)) hh
  unfold countB
  have hb : ∀ p, p < t.bucket → (view kb t s p).fil → ∃ k, k < 2 ^ kb ∧ P.ihash kb (code kb t s home p) = some k ∧ P.hash kb k = some (code kb t s home p) := fun p hp hf => by
    obtain ⟨k, h1, h2, h3⟩ := G.bwd _ (A.range p hp hf)
    exact ⟨k, h1, h2, h3⟩
  rw [← List.length_map (f := fun p => (P.ihash kb (code kb t s home p)).getD 0) (as := (List.range t.bucket).filter (fun p => decide (view kb t s p).fil))]
  refine List.Perm.length_eq ((List.perm_ext_iff_of_nodup hn ?_).2 ?_)
  · refine (List.nodup_map_iff_inj_on (List.nodup_range.filter _)).2 ?_
    intro p hp q hq e
    simp only [List.mem_filter, List.mem_range, decide_eq_true_eq] at hp hq
    obtain ⟨k, _, h2, h3⟩ := hb p hp.1 hp.2
    obtain ⟨k', _, h2', h3'⟩ := hb q hq.1 hq.2
    rw [h2, h2', Option.getD_some, Option.getD_some] at e
    rw [e, h3'] at h3
    have h3 := Option.some.inj h3
    rcases Nat.lt_trichotomy p q with h | h | h
    · exact (inj p q h hq.1 hp.2 hq.2 h3.symm).elim
    · exact h
    · exact (inj q p h hp.1 hq.2 hp.2 h3).elim
  · intro k
    simp only [hk, List.mem_map, List.mem_filter, List.mem_range, decide_eq_true_eq]
    constructor
    · rintro ⟨h1, h2⟩
      obtain ⟨v, hv⟩ := Option.ne_none_iff_exists'.1 h2
      obtain ⟨p, hp, hf, hh, _⟩ := (A.has k h1 v).1 hv
      obtain ⟨k', h3, h4, h5⟩ := hb p hp hf
      refine ⟨p, ⟨hp, hf⟩, ?_⟩
      rw [h4, Option.getD_some]
      exact G.inj h3 h1 (h5.trans hh.symm)
    · rintro ⟨p, ⟨hp, hf⟩, e⟩
      obtain ⟨k', h3, h4, h5⟩ := hb p hp hf
      rw [h4, Option.getD_some] at e
      subst e
      exact ⟨h3, by rw [(A.has k' h3 _).2 ⟨p, hp, hf, h5, rfl⟩]; simp⟩

/-- A home is occupied if some key of the table belongs there. -/
theorem At.occ (G : Good P kb) (w : WT kb vw t) (A : At P kb vw t M s home) {p : Nat} (hp : p < t.bucket) :
    (view kb t s p).occ = true ↔ ∃ k c, k < 2 ^ kb ∧ M k ≠ none ∧ P.hash kb k = some c ∧ c % t.bucket = (s + p) % t.bucket := by
  have hB := w.pos
  have L := A.lay
  have hmod : ∀ q, code kb t s home q % t.bucket = (s + home q) % t.bucket := by
    intro q
    unfold code
    rw [Nat.mul_comm, Nat.mul_add_mod, Nat.mod_mod]
  rw [L.occ p hp]
  constructor
  · rintro ⟨q, hq, hf, rfl⟩
    obtain ⟨k, h1, _, h3⟩ := G.bwd _ (A.range q hq hf)
    exact ⟨k, _, h1, by rw [(A.has k h1 _).2 ⟨q, hq, hf, h3, rfl⟩]; simp, h3, hmod q⟩
  · rintro ⟨k, c, h1, h2, h3, h4⟩
    obtain ⟨v, hv⟩ := Option.ne_none_iff_exists'.1 h2
    obtain ⟨q, hq, hf, hh, _⟩ := (A.has k h1 v).1 hv
    refine ⟨q, hq, hf, ?_⟩
    rw [h3] at hh
    rw [Option.some.inj hh, hmod q] at h4
    have hle := L.le q hq hf
    have hn := (List.nodup_map_iff_inj_on List.nodup_range).1 ((rotate_perm (s := s) hB).nodup_iff.2 List.nodup_range)
    exact hn _ (List.mem_range.2 (by omega)) _ (List.mem_range.2 hp) h4

/-- The lines printed for the slots, with the number of shifted ones. -/
theorem printLoop_spec (w : WT kb vw t) : ∀ (n i cnt : Nat), i + n = t.bucket → t.bucket < 2 ^ 31 →
    ∃ ls, t.printLoop n i cnt = some (ls, cnt + ((List.range' i n).filter (fun j => isSh (word kb t j))).length) ∧
      ls = (List.range' i n).map (fun j => s!"{j}] {bit (isOcc (word kb t j))}{bit (isCont (word kb t j))}{bit (isSh (word kb t j))}")
  | 0, i, cnt, _, _ => ⟨[], rfl, rfl⟩
  | n + 1, i, cnt, h, hb => by
    obtain ⟨ls, e, hl⟩ := printLoop_spec w n (i + 1) (cnt + if isSh (word kb t i) then 1 else 0) (by omega) hb
    refine ⟨_, ?_, rfl⟩
    rw [Tab.printLoop, if_pos (by omega), get_word w (by omega)]
    simp only [Option.bind_eq_bind, Option.bind_some, e, Option.pure_def, Option.some.injEq, Prod.mk.injEq]
    refine ⟨by rw [hl, List.range'_succ, List.map_cons], ?_⟩
    rw [List.range'_succ, List.filter_cons]
    cases isSh (word kb t i)
    · simp
    · simp
      omega

/-- What `print_for_debug` writes: one line for each slot and a last one. -/
def lines (B : Nat) (o c s : Nat → Bool) (cnt : Nat) : List String :=
  (List.range B).map (fun i => s!"{i}] {bit (o i)}{bit (c i)}{bit (s i)}") ++ [s!"cnt shifted: {cnt}"]

/-- C90: what `print_for_debug` tells of a table, after any history of `set`, `erase` and `reserve` that returned. The first digit of line `i` is 1 if and only if the hash of some key in the table
is `i` modulo the number of slots. The number of ones in the first two columns is the number of keys that `get` reports. A slot with the second digit has the third, and the number
in the last line is the number of ones in the third column. It is 0 if and only if no two keys of the table have the same place. -/
theorem C90_print (P : Par) (kb vw b d : Nat) (cs : List Call)
    (hash : ∀ x, x < 2 ^ kb → ∃ y, y < 2 ^ kb ∧ P.hash kb x = some y ∧ P.ihash kb y = some x)
    (ihash : ∀ y, y < 2 ^ kb → ∃ x, x < 2 ^ kb ∧ P.ihash kb y = some x ∧ P.hash kb x = some y)
    (hb : b < 64) (hv1 : 1 ≤ vw) (hv63 : vw ≤ 63) (hv : P.vbits = vw ∨ P.vbits = 0)
    (hset : ∀ k v, Call.set k v ∈ cs → k < 2 ^ kb ∧ v < 2 ^ vw) (her : ∀ k, Call.erase k ∈ cs → k < 2 ^ kb)
    (t t' : Tab) (e : start P kb (2 ^ b) vw = some t) (e' : calls P d t cs = some t') (h31 : t'.bucket < 2 ^ 31)
    (ks : List Nat) (hn : ks.Nodup) (hk : ∀ k, k ∈ ks ↔ k < 2 ^ kb ∧ ∃ v, t'.get P k = some (true, v)) :
    ∃ o c sh cnt, t'.print = some (lines t'.bucket o c sh cnt) ∧
      (∀ i, i < t'.bucket → (o i = true ↔ ∃ k ∈ ks, ∃ h, P.hash kb k = some h ∧ h % t'.bucket = i)) ∧
      countB o t'.bucket + countB c t'.bucket = ks.length ∧ (∀ i, i < t'.bucket → c i = true → sh i = true) ∧ cnt = countB sh t'.bucket ∧
      (cnt = 0 ↔ ∀ k ∈ ks, ∀ k' ∈ ks, ∀ h h', P.hash kb k = some h → P.hash kb k' = some h' → h % t'.bucket = h' % t'.bucket → k = k') := by
  have G : Good P kb := ⟨hash, ihash⟩
  have V : Width P vw := ⟨hv1, hv63, hv⟩
  obtain ⟨M, ⟨w, s, home, A⟩, _⟩ := calls_safe G V (start_safe V hb e) d cs hset her t' e'
  have hB := w.pos
  have L := A.lay
  have hk' : ∀ k, k ∈ ks ↔ k < 2 ^ kb ∧ M k ≠ none := by
    intro k
    rw [hk]
    refine and_congr_right (fun h1 => ?_)
    rw [get_spec G w A h1]
    cases M k with
    | none => simp
    | some v => simp
  have hmod : ∀ q, code kb t' s home q % t'.bucket = (s + home q) % t'.bucket := by
    intro q
    unfold code
    rw [Nat.mul_comm, Nat.mul_add_mod, Nat.mod_mod]
  have hrot := (List.nodup_map_iff_inj_on List.nodup_range).1 ((rotate_perm (s := s) hB).nodup_iff.2 List.nodup_range)
  have hsur : ∀ i, i < t'.bucket → ∃ p, p < t'.bucket ∧ (s + p) % t'.bucket = i := by
    intro i hi
    have := (rotate_perm (s := s) hB).mem_iff.2 (List.mem_range.2 hi)
    simpa using this
  obtain ⟨ls, e1, e2⟩ := printLoop_spec w t'.bucket 0 0 (by omega) h31
  refine ⟨fun i => isOcc (word kb t' i), fun i => isCont (word kb t' i), fun i => isSh (word kb t' i), _, ?_, ?_, ?_, ?_, rfl, ?_⟩
  · unfold Tab.print lines
    rw [e1]
    simp only [Option.bind_eq_bind, Option.bind_some, Option.pure_def, Nat.zero_add, countB, List.range_eq_range', e2]
  · intro i hi
    obtain ⟨p, hp, rfl⟩ := hsur i hi
    show (view kb t' s p).occ = true ↔ _
    rw [A.occ G w hp]
    constructor
    · rintro ⟨k, c, h1, h2, h3, h4⟩
      exact ⟨k, (hk' k).2 ⟨h1, h2⟩, c, h3, h4⟩
    · rintro ⟨k, h1, c, h3, h4⟩
      exact ⟨k, c, ((hk' k).1 h1).1, ((hk' k).1 h1).2, h3, h4⟩
  · rw [A.keys G ks hn hk', ← L.runs, ← countB_rotate (s := s) hB (fun i => isOcc (word kb t' i)), ← countB_rotate (s := s) hB (fun i => isCont (word kb t' i))]
    rfl
  · intro i hi hc
    obtain ⟨p, hp, rfl⟩ := hsur i hi
    have hc' : (view kb t' s p).cont = true := hc
    show (view kb t' s p).sh = true
    rw [L.sh p hp]
    refine ⟨.inr (.inl hc'), ?_⟩
    cases p with
    | zero =>
      rw [L.cont0] at hc'
      exact absurd hc' (by simp)
    | succ p =>
      obtain ⟨h1, _, h2⟩ := (L.cont p hp).1 hc'
      have := L.le p (by omega) h1
      omega
  · rw [← countB_rotate (s := s) hB (fun i => isSh (word kb t' i))]
    have h0 : countB (fun p => isSh (word kb t' ((s + p) % t'.bucket))) t'.bucket = 0 ↔ ∀ p, p < t'.bucket → (view kb t' s p).sh = false := by
      unfold countB
      rw [List.length_eq_zero_iff, List.filter_eq_nil_iff]
      constructor
      · intro h p hp
        exact Bool.eq_false_iff.2 (h p (List.mem_range.2 hp))
      · intro h p hp
        exact Bool.eq_false_iff.1 (h p (List.mem_range.1 hp))
    rw [h0]
    constructor
    · intro h k h1 k' h1' c c' h2 h2' hm
      obtain ⟨g1, g2⟩ := (hk' k).1 h1
      obtain ⟨g1', g2'⟩ := (hk' k').1 h1'
      obtain ⟨v, hv⟩ := Option.ne_none_iff_exists'.1 g2
      obtain ⟨v', hv'⟩ := Option.ne_none_iff_exists'.1 g2'
      obtain ⟨p, hp, hf, hh, _⟩ := (A.has k g1 v).1 hv
      obtain ⟨q, hq, hf', hh', _⟩ := (A.has k' g1' v').1 hv'
      have hhome : ∀ p, p < t'.bucket → (view kb t' s p).fil → home p = p := by
        intro p hp hf
        have h3 := L.le p hp hf
        by_contra hne
        have := (L.sh p hp).2 ⟨hf, by omega⟩
        rw [h p hp] at this
        exact absurd this (by simp)
      rw [h2] at hh
      rw [h2'] at hh'
      rw [Option.some.inj hh, Option.some.inj hh', hmod, hmod, hhome p hp hf, hhome q hq hf'] at hm
      have hpq := hrot p (List.mem_range.2 hp) q (List.mem_range.2 hq) hm
      subst hpq
      exact G.inj g1 g1' (by rw [h2, h2', Option.some.inj hh, Option.some.inj hh'])
    · intro h
      have hdis : ∀ p q, p < t'.bucket → q < t'.bucket → (view kb t' s p).fil → (view kb t' s q).fil → home p = home q → p = q := by
        intro p q hp hq hf hf' hpq
        obtain ⟨k, k1, _, k3⟩ := G.bwd _ (A.range p hp hf)
        obtain ⟨k', k1', _, k3'⟩ := G.bwd _ (A.range q hq hf')
        have m1 : k ∈ ks := (hk' k).2 ⟨k1, by rw [(A.has k k1 _).2 ⟨p, hp, hf, k3, rfl⟩]; simp⟩
        have m2 : k' ∈ ks := (hk' k').2 ⟨k1', by rw [(A.has k' k1' _).2 ⟨q, hq, hf', k3', rfl⟩]; simp⟩
        have hkk := h k m1 k' m2 _ _ k3 k3' (by rw [hmod, hmod, hpq])
        subst hkk
        rw [k3] at k3'
        have hc := Option.some.inj k3'
        have hm1 := Nat.mod_lt (s + home p) hB
        unfold code at hc
        rw [hpq] at hc
        have hq' : (view kb t' s p).quo = (view kb t' s q).quo := by
          have := congrArg (· / t'.bucket) hc
          beta_reduce at this
          have hm2 := Nat.mod_lt (s + home q) hB
          rw [Nat.mul_comm, Nat.mul_add_div (by omega), Nat.div_eq_of_lt hm2, Nat.mul_comm, Nat.mul_add_div (by omega), Nat.div_eq_of_lt hm2] at this
          omega
        rcases Nat.lt_trichotomy p q with h | h | h
        · exact (L.uniq p q h hq hf hf' hpq hq').elim
        · exact h
        · exact (L.uniq q p h hp hf' hf hpq.symm hq'.symm).elim
      have hhome : ∀ p, p < t'.bucket → (view kb t' s p).fil → home p = p := by
        intro p
        induction p using Nat.strong_induction_on with
        | _ p ih =>
          intro hp hf
          have hle := L.le p hp hf
          by_contra hne
          have hf' := L.between p hp hf (home p) (Nat.le_refl _) hle
          have := ih (home p) (by omega) (by omega) hf'
          exact hne (hdis _ _ (by omega) hp hf' hf this)
      intro p hp
      by_contra hc
      obtain ⟨h1, h2⟩ := (L.sh p hp).1 (by simpa using hc)
      have := hhome p hp h1
      omega

theorem printLoop_ub (t : Tab) : ∀ (n i cnt : Nat), 0 < n → 2 ^ 31 ≤ i + n → t.printLoop n i cnt = none
  | n + 1, i, cnt, _, h => by
    rw [Tab.printLoop]
    split
    · rename_i hi
      rw [Option.bind_eq_bind, Option.bind_eq_none_iff]
      intro w _
      rw [printLoop_ub t n (i + 1) _ (by omega) (by omega)]
      rfl
    · rfl

/-- The bound on the number of slots is needed: with 2^31 slots or more the `int` index of the loop overflows. -/
theorem C90_print_ub (t : Tab) (h : 2 ^ 31 ≤ t.bucket) : t.print = none := by
  unfold Tab.print
  rw [printLoop_ub t _ 0 0 (by omega) (by omega)]
  rfl

/-- A new table can have that many slots. -/
example : ∃ t, start (defaultPar 5) 40 (2 ^ 31) 5 = some t ∧ t.print = none := by
  obtain ⟨t, e, _⟩ := start_spec (P := defaultPar 5) (kb := 40) (vw := 5) (b := 31) ⟨by decide, by decide, .inl rfl⟩ (by decide) (by decide) (by decide +kernel) (by decide +kernel)
  exact ⟨t, e, C90_print_ub t (Nat.le_of_eq (start_bucket e).symm)⟩

/-- A history whose table has keys away from their places. -/
def printed : List Call := [.set 3 1, .set 22 2, .set 5 7, .erase 3, .set 40 9, .set 41 3, .set 1 1, .set 2 2]

/-- The history `printed` meets the hypotheses of `C90_print`. -/
example : ∃ t t', start (defaultPar 5) 6 8 5 = some t ∧ calls (defaultPar 5) 3 t printed = some t' ∧ t'.bucket = 16 ∧
    ∃ o c sh cnt, t'.print = some (lines 16 o c sh cnt) ∧ countB o 16 + countB c 16 = 7 ∧ cnt ≠ 0 := by
  have h : ((start (defaultPar 5) 6 8 5).bind (fun t => (calls (defaultPar 5) 3 t printed).map (fun t' =>
      (t'.bucket, (List.range 64).map (fun k => (t'.get (defaultPar 5) k).map Prod.fst))))) =
      some (16, (List.range 64).map (fun k => some (decide (k ∈ [1, 2, 3, 5, 22, 40, 41])))) := by decide +kernel
  obtain ⟨t, e1, h⟩ := Option.bind_eq_some_iff.1 h
  obtain ⟨t', e2, h⟩ := Option.map_eq_some_iff.1 h
  obtain ⟨hB, hg⟩ := Prod.mk.inj h
  have hg := List.map_inj_left.1 hg
  refine ⟨t, t', e1, e2, hB, ?_⟩
  obtain ⟨o, c, sh, cnt, p1, _, p2, _, _, p3⟩ := C90_print (defaultPar 5) 6 5 3 3 printed
    (fun x hx => by obtain ⟨y, h1, h2, h3⟩ := Hash.C43_ihash_hash 6 x (by omega) hx; exact ⟨y, h2, h1, h3⟩)
    (fun y hy => by obtain ⟨x, h1, h2, h3⟩ := Hash.C43_hash_ihash 6 y (by omega) hy; exact ⟨x, h2, h1, h3⟩)
    (by decide) (by decide) (by decide) (.inl rfl) (by intro k v h; simp [printed] at h; omega) (by intro k h; simp [printed] at h; omega) t t' e1 e2
    (by rw [hB]; decide) [1, 2, 3, 5, 22, 40, 41] (by decide) (by
      intro k
      constructor
      · intro hk
        have hlt : k < 64 := by
          simp only [List.mem_cons, List.not_mem_nil, or_false] at hk
          omega
        obtain ⟨⟨b, v⟩, hr, hb⟩ := Option.map_eq_some_iff.1 (hg k (List.mem_range.2 hlt))
        have hb : b = true := hb.trans (decide_eq_true hk)
        subst hb
        exact ⟨hlt, v, hr⟩
      · rintro ⟨hk, v, hv⟩
        have := hg k (List.mem_range.2 hk)
        rw [hv, Option.map_some] at this
        exact of_decide_eq_true (Option.some.inj this).symm)
  rw [hB] at p1 p2 p3
  refine ⟨o, c, sh, cnt, p1, p2, fun h0 => ?_⟩
  exact absurd (p3.1 h0 3 (by decide) 22 (by decide) 33 17 (by decide +kernel) (by decide +kernel) (by decide)) (by decide)

end Verif.CHT

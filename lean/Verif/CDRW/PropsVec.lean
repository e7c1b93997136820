/-
Property theorems C68 (CDRWVector).
-/
import Verif.CDRW.Props
import Verif.CDRW.Fresh

namespace Verif.CDRW
open Verif.CHT

/-- The calls on a vector. -/
inductive VOp where
  | push (v : Nat)
  | pop
  | set (i v : Nat)
  | resize (n : Nat)
  | reserve (n : Nat)
  | shrink
  | clear

/-- A vector, the values given up after its end, in the order of their positions, and the values written so far. -/
structure Hist where
  live : List Nat
  stale : List Nat
  seen : List Nat

/-- The effect of a call: on `live` it is the effect on a vector. -/
def VOp.eff (s : Hist) : VOp → Hist
  | .push v => ⟨s.live ++ [v], s.stale.tail, v :: s.seen⟩
  | .pop => ⟨s.live.dropLast, s.live.drop (s.live.length - 1) ++ s.stale, s.seen⟩
  | .set i v => ⟨s.live.set i v, s.stale, v :: s.seen⟩
  | .resize n => ⟨s.live.take n ++ List.replicate (n - s.live.length) 0, s.live.drop n ++ s.stale.drop (n - s.live.length), s.seen⟩
  | .reserve _ => s
  | .shrink => s
  | .clear => ⟨[], s.live ++ s.stale, s.seen⟩

/-- The calls for which `CDRWVector` is correct: a place, also of an element given up, changes its bit length only if it is zero or no value with one bit more was
written so far; `resize` does not bring back elements other than zero; no `shrink_to_fit` of an empty vector. -/
def VOp.ok (s : Hist) : VOp → Prop
  | .push v => v < 2 ^ 63 ∧ (s.stale.getD 0 0 = 0 ∨ Nat.size (s.stale.getD 0 0) = Nat.size v ∨ ∀ y ∈ s.seen, Nat.size y ≠ Nat.size (s.stale.getD 0 0) + 1)
  | .pop => True
  | .set i v => v < 2 ^ 63 ∧ ∃ x, s.live[i]? = some x ∧ (x = 0 ∨ Nat.size x = Nat.size v ∨ ∀ y ∈ s.seen, Nat.size y ≠ Nat.size x + 1)
  | .resize n => n ≤ 2 ^ 53 ∧ ∀ x ∈ s.stale.take (n - s.live.length), x = 0
  | .reserve n => n ≤ 2 ^ 53
  | .shrink => s.live ≠ []
  | .clear => True

def VOp.run (v : Vec) : VOp → Option Vec
  | .push x => v.push x
  | .pop => v.pop
  | .set i x => v.set i x
  | .resize n => v.resize n
  | .reserve n => v.reserve n
  | .shrink => v.shrink
  | .clear => some v.clear

def runs : Vec → List VOp → Option Vec
  | v, [] => some v
  | v, o :: ops => (o.run v).bind (runs · ops)

def allOk : Hist → List VOp → Prop
  | _, [] => True
  | s, o :: ops => o.ok s ∧ allOk (o.eff s) ops

/-- The vector holds `l`; after the end there are values of `r` or zeros; `q` are the values written. -/
structure VInv (v : Vec) (l r q : List Nat) (m : Nat) : Prop where
  size : v.size = l.length
  pos : 1 ≤ v.cap
  le : l.length ≤ v.cap
  cap : v.cap ≤ 2 ^ 60
  small : ∀ x ∈ l, x < 2 ^ 63
  ok : ∃ A, Ok (sizeBits v.cap) v.cap m v.arr A ∧ (∀ i, i < l.length → A i = l.getD i 0) ∧
    ∀ i, l.length ≤ i → A i = 0 ∨ A i = r.getD (i - l.length) 0
  stale : ∀ x ∈ r, x < 2 ^ 63
  clean : Clean (sizeBits v.cap) v.cap v.arr q
  live : ∀ x ∈ l, x = 0 ∨ x ∈ q

theorem getD_lt {l : List Nat} (h : ∀ x ∈ l, x < 2 ^ 63) (i : Nat) : l.getD i 0 < 2 ^ 63 := by
  rw [List.getD_eq_getElem?_getD]
  cases e : l[i]? with
  | none => simp
  | some x => exact h x (List.mem_of_getElem? e)

theorem copy_ok {kb n kb' n' m : Nat} {src : Arr} {A : Nat → Nat} {l q : List Nat} (hkb : kb ≤ 62) (hn : n ≤ 2 ^ kb) (hkb' : kb' ≤ 62) (hn' : n' ≤ 2 ^ kb')
    (O : Ok kb n m src A) (hA : ∀ i, A i < 2 ^ 63) (hl : ∀ i, i < l.length → A i = l.getD i 0) (h1 : l.length ≤ n) (h2 : l.length ≤ n')
    (hb : l.length ≤ 2 ^ 55) (hq : ∀ x ∈ l, x = 0 ∨ x ∈ q) : ∀ (c i : Nat) (dst : Arr),
    i + c = l.length → Ok kb' n' i dst (fun j => (l.take i).getD j 0) → Clean kb' n' dst q →
    ∃ dst', copy src c i dst = some dst' ∧ Ok kb' n' l.length dst' (fun j => l.getD j 0) ∧ Clean kb' n' dst' q
  | 0, i, dst, hi, D, C => by
    rw [Nat.add_zero] at hi
    subst hi
    rw [List.take_length] at D
    exact ⟨dst, rfl, D, C⟩
  | c + 1, i, dst, hi, D, C => by
    have hg := get_ok hkb hn O (fun i _ => hA i) (i := i) (by omega)
    have hv := hA i
    rw [hl i (by omega)] at hg hv
    have hz : (l.take i).getD i 0 = 0 := by
      rw [List.getD_eq_getElem?_getD, List.getElem?_eq_none (by simp)]
      rfl
    obtain ⟨d1, e1, D1, C1⟩ := set_clean hkb' hn' D C (by omega) (i := i) (v := l.getD i 0) (by omega) hv (by rw [hz]; decide) (.inl hz)
    have C1 := C1 q (fun _ h => h) (hq _ (by rw [List.getD_eq_getElem?_getD, List.getElem?_eq_getElem (show i < l.length by omega)]; exact List.getElem_mem _))
    have : Function.update (fun j => (l.take i).getD j 0) i (l.getD i 0) = (fun j => (l.take (i + 1)).getD j 0) := by
      funext j
      rcases Nat.lt_trichotomy j i with h | h | h
      · rw [Function.update_of_ne (by omega)]
        simp only [List.getD_eq_getElem?_getD, List.getElem?_take, if_pos h, if_pos (show j < i + 1 by omega)]
      · subst h
        rw [Function.update_self]
        simp only [List.getD_eq_getElem?_getD, List.getElem?_take, if_pos (show j < j + 1 by omega)]
      · rw [Function.update_of_ne (by omega)]
        simp only [List.getD_eq_getElem?_getD, List.getElem?_take, if_neg (show ¬ j < i by omega), if_neg (show ¬ j < i + 1 by omega)]
    rw [this] at D1
    obtain ⟨d2, e2, D2, C2⟩ := copy_ok hkb hn hkb' hn' O hA hl h1 h2 hb hq c (i + 1) d1 (by omega) D1 C1
    exact ⟨d2, by simp only [copy, hg, Option.bind_eq_bind, Option.bind_some, e1, e2], D2, C2⟩

theorem VInv.lt {v : Vec} {l r q : List Nat} {m : Nat} (I : VInv v l r q m) {A : Nat → Nat} (h1 : ∀ i, i < l.length → A i = l.getD i 0)
    (h2 : ∀ i, l.length ≤ i → A i = 0 ∨ A i = r.getD (i - l.length) 0) (i : Nat) : A i < 2 ^ 63 := by
  by_cases h : i < l.length
  · rw [h1 i h]; exact getD_lt I.small i
  · rcases h2 i (by omega) with h | h
    · rw [h]; decide
    · rw [h]; exact getD_lt I.stale _

theorem allocate_ok {v : Vec} {l r q : List Nat} {m c : Nat} (I : VInv v l r q m) (hlen : l.length ≤ 2 ^ 55) (h0 : 1 ≤ c) (h1 : l.length ≤ c) (h2 : c ≤ 2 ^ 60) :
    ∃ v', v.allocate c = some v' ∧ VInv v' l r q l.length ∧ v'.cap = c := by
  have hp := I.pos
  have hc := I.cap
  have hle := I.le
  obtain ⟨A, hO, hA1, hA2⟩ := I.ok
  obtain ⟨a, e, O⟩ := new_ok (n := c) (by omega) (by omega)
  obtain ⟨b1, b2⟩ := sizeBits_spec (n := c) (by omega) (by omega)
  obtain ⟨b3, b4⟩ := sizeBits_spec (n := v.cap) (by omega) (by omega)
  obtain ⟨a', e', O', C'⟩ := copy_ok b4 b3 b2 b1 hO (I.lt hA1 hA2) hA1 I.le h1 hlen I.live l.length 0 a (by omega) (by
    have : (fun j => (List.take 0 l).getD j 0) = (fun _ => 0) := by
      funext j
      simp
    rw [this]
    exact O) ((new_clean (by omega) e).mono (by simp))
  refine ⟨{ v with arr := a', cap := c }, ?_, ⟨I.size, h0, h1, h2, I.small, ⟨_, O', fun i _ => rfl, fun i hi => Or.inl ?_⟩, I.stale, C', I.live⟩, rfl⟩
  · simp only [Vec.allocate, e, Option.bind_eq_bind, Option.bind_some, I.size, e', Option.pure_def]
  · simp only [List.getD_eq_getElem?_getD, List.getElem?_eq_none hi, Option.getD_none]

/-- The vector gets shorter. -/
theorem VInv.give {v : Vec} {l r q : List Nat} {m n : Nat} (I : VInv v l r q m) (hn : n ≤ l.length) :
    VInv { v with size := n } (l.take n) (l.drop n ++ r) q m := by
  have hle := I.le
  obtain ⟨A, hO, hA1, hA2⟩ := I.ok
  have hlen : (l.take n).length = n := by rw [List.length_take]; omega
  refine ⟨hlen.symm, I.pos, by rw [hlen]; simp only; omega, I.cap, fun x hx => I.small x (List.mem_of_mem_take hx), ⟨A, hO, fun i hi => ?_, fun i hi => ?_⟩,
    fun x hx => ?_, I.clean, fun x hx => I.live x (List.mem_of_mem_take hx)⟩
  · rw [hlen] at hi
    rw [hA1 i (by omega)]
    simp only [List.getD_eq_getElem?_getD, List.getElem?_take, if_pos hi]
  · rw [hlen] at hi ⊢
    by_cases h : i < l.length
    · right
      rw [hA1 i h]
      simp only [List.getD_eq_getElem?_getD]
      rw [List.getElem?_append_left (by rw [List.length_drop]; omega), List.getElem?_drop, show n + (i - n) = i by omega]
    · rcases hA2 i (by omega) with h' | h'
      · exact Or.inl h'
      · right
        rw [h']
        simp only [List.getD_eq_getElem?_getD]
        rw [List.getElem?_append_right (by rw [List.length_drop]; omega), List.length_drop, show i - n - (l.length - n) = i - l.length by omega]
  · rcases List.mem_append.1 hx with h | h
    · exact I.small x (List.mem_of_mem_drop h)
    · exact I.stale x h

/-- The vector gets longer: the elements after the end are zero. -/
theorem VInv.grow {v : Vec} {l r q : List Nat} {m n : Nat} (I : VInv v l r q m) (hn : l.length ≤ n) (hc : n ≤ v.cap) (hz : ∀ x ∈ r.take (n - l.length), x = 0) :
    VInv { v with size := n } (l ++ List.replicate (n - l.length) 0) (r.drop (n - l.length)) q m := by
  obtain ⟨A, hO, hA1, hA2⟩ := I.ok
  have hlen : (l ++ List.replicate (n - l.length) 0).length = n := by simp; omega
  refine ⟨hlen.symm, I.pos, by rw [hlen]; exact hc, I.cap, fun x hx => ?_, ⟨A, hO, fun i hi => ?_, fun i hi => ?_⟩, fun x hx => I.stale x (List.mem_of_mem_drop hx), I.clean, fun x hx => ?_⟩
  · rcases List.mem_append.1 hx with h | h
    · exact I.small x h
    · rw [(List.mem_replicate.1 h).2]; decide
  · rw [hlen] at hi
    simp only [List.getD_eq_getElem?_getD]
    by_cases h : i < l.length
    · rw [List.getElem?_append_left h, hA1 i h, List.getD_eq_getElem?_getD]
    · rw [List.getElem?_append_right (by omega), List.getElem?_replicate, if_pos (by omega)]
      rcases hA2 i (by omega) with h' | h'
      · exact h'
      · rw [h', List.getD_eq_getElem?_getD]
        cases e : r[i - l.length]? with
        | none => rfl
        | some x =>
          refine hz x (List.mem_of_getElem? (i := i - l.length) ?_)
          rw [List.getElem?_take, if_pos (by omega), e]
  · rw [hlen] at hi ⊢
    rcases hA2 i (by omega) with h | h
    · exact Or.inl h
    · right
      rw [h]
      simp only [List.getD_eq_getElem?_getD, List.getElem?_drop]
      rw [show n - l.length + (i - n) = i - l.length by omega]
  · rcases List.mem_append.1 hx with h | h
    · exact I.live x h
    · exact .inl (List.mem_replicate.1 h).2

/-- One call. -/
theorem step_ok {v : Vec} {s : Hist} {m : Nat} (I : VInv v s.live s.stale s.seen m) (hm : m ≤ 2 ^ 55) (hlm : s.live.length ≤ 2 ^ 54) (o : VOp) (ho : o.ok s) :
    ∃ v' m', o.run v = some v' ∧ VInv v' (o.eff s).live (o.eff s).stale (o.eff s).seen m' ∧ m' ≤ max m s.live.length + 1 := by
  obtain ⟨l, r, q⟩ := s
  simp only at I hlm ⊢
  have hp := I.pos
  have hc := I.cap
  have hle := I.le
  have hs := I.size
  cases o with
  | push x =>
    obtain ⟨hx, hfit⟩ := ho
    obtain ⟨v1, m1, e1, I1, hcap, hm1⟩ : ∃ v1 m1, (if v.size = v.cap then v.allocate (v.size * 2) else some v) = some v1 ∧ VInv v1 l r q m1 ∧ l.length < v1.cap ∧ m1 ≤ max m l.length := by
      by_cases h : v.size = v.cap
      · rw [if_pos h, hs]
        obtain ⟨v1, e1, I1, hcap⟩ := allocate_ok I (c := l.length * 2) (by omega) (by omega) (by omega) (by omega)
        exact ⟨v1, l.length, e1, I1, by omega, by omega⟩
      · rw [if_neg h]
        exact ⟨v, m, rfl, I, by omega, by omega⟩
    have hc1 := I1.cap
    obtain ⟨b1, b2⟩ := sizeBits_spec (n := v1.cap) (by omega) (by omega)
    obtain ⟨A, hO, hA1, hA2⟩ := I1.ok
    obtain ⟨a2, e2, O2, C2⟩ := set_clean b2 b1 hO I1.clean (by omega) (i := l.length) (v := x) hcap hx (I1.lt hA1 hA2 _) (by
      rcases hA2 l.length (Nat.le_refl _) with h | h
      · exact Or.inl h
      · rw [Nat.sub_self] at h
        rw [h]
        exact hfit)
    refine ⟨⟨l.length + 1, v1.cap, a2⟩, m1 + 1, ?_, ⟨by simp [VOp.eff], I1.pos, by simp [VOp.eff]; omega, hc1, ?_, ⟨_, O2, ?_, ?_⟩, ?_,
      C2 _ (fun y hy => by simp [VOp.eff, hy]) (.inr (by simp [VOp.eff])), ?_⟩, by omega⟩
    · show v.push x = _
      unfold Vec.push
      rw [e1]
      simp only [Option.bind_eq_bind, Option.bind_some, Vec.set, I1.size, Nat.add_sub_cancel, e2, Option.pure_def]
    · intro y hy
      simp only [VOp.eff, List.mem_append, List.mem_singleton] at hy
      rcases hy with hy | hy
      · exact I.small y hy
      · rw [hy]
        exact hx
    · intro j hj
      simp only [VOp.eff, List.length_append, List.length_singleton] at hj
      simp only [VOp.eff, List.getD_eq_getElem?_getD]
      by_cases h : j = l.length
      · subst h
        simp
      · rw [Function.update_of_ne h, List.getElem?_append_left (by omega), hA1 j (by omega), List.getD_eq_getElem?_getD]
    · intro j hj
      simp only [VOp.eff, List.length_append, List.length_singleton] at hj ⊢
      rw [Function.update_of_ne (by omega)]
      rcases hA2 j (by omega) with h | h
      · exact Or.inl h
      · right
        rw [h]
        simp only [List.getD_eq_getElem?_getD, List.getElem?_tail]
        rw [show j - (l.length + 1) + 1 = j - l.length by omega]
    · intro y hy
      exact I.stale y (List.mem_of_mem_tail hy)
    · intro y hy
      simp only [VOp.eff, List.mem_append, List.mem_singleton] at hy
      rcases hy with hy | hy
      · exact (I.live y hy).imp_right (fun h => by simp [VOp.eff, h])
      · exact .inr (by simp [VOp.eff, hy])
  | pop =>
    have hd : l.dropLast = l.take (l.length - 1) := List.dropLast_eq_take
    by_cases h0 : v.size = 0
    · have : l = [] := List.length_eq_zero_iff.1 (by omega)
      subst this
      exact ⟨v, m, by simp only [VOp.run, Vec.pop, if_pos h0], by simpa [VOp.eff] using I, by omega⟩
    · obtain ⟨v1, m1, e1, I1, hm1⟩ : ∃ v1 m1, (if v.size * 3 < v.cap then v.allocate (v.size * 2) else some v) = some v1 ∧ VInv v1 l r q m1 ∧ m1 ≤ max m l.length := by
        by_cases h : v.size * 3 < v.cap
        · rw [if_pos h, hs]
          obtain ⟨v1, e1, I1, hcap⟩ := allocate_ok I (c := l.length * 2) (by omega) (by omega) (by omega) (by omega)
          exact ⟨v1, l.length, e1, I1, by omega⟩
        · rw [if_neg h]
          exact ⟨v, m, rfl, I, by omega⟩
      refine ⟨{ v1 with size := l.length - 1 }, m1, ?_, ?_, by omega⟩
      · simp only [VOp.run, Vec.pop, if_neg h0, e1, Option.map_some, I1.size]
      · simp only [VOp.eff, hd]
        exact I1.give (by omega)
  | set i x =>
    obtain ⟨hx, y, hy, hfit⟩ := ho
    simp only at hy
    have hi : i < l.length := by
      by_contra hc
      rw [List.getElem?_eq_none (by omega)] at hy
      exact absurd hy (by simp)
    have hyd : l.getD i 0 = y := by rw [List.getD_eq_getElem?_getD, hy]; rfl
    obtain ⟨b1, b2⟩ := sizeBits_spec (n := v.cap) (by omega) (by omega)
    obtain ⟨A, hO, hA1, hA2⟩ := I.ok
    obtain ⟨a2, e2, O2, C2⟩ := set_clean b2 b1 hO I.clean hm (i := i) (v := x) (by omega) hx (I.lt hA1 hA2 _) (by rw [hA1 i hi, hyd]; exact hfit)
    refine ⟨{ v with arr := a2 }, m + 1, ?_, ⟨by simp [VOp.eff, hs], hp, by simpa [VOp.eff] using hle, hc, ?_, ⟨_, O2, ?_, ?_⟩, I.stale,
      C2 _ (fun y hy => by simp [VOp.eff, hy]) (.inr (by simp [VOp.eff])), ?_⟩, by omega⟩
    · show v.set i x = _
      simp only [Vec.set, e2, Option.bind_eq_bind, Option.bind_some, Option.pure_def]
    · intro z hz
      rcases List.mem_or_eq_of_mem_set hz with h | h
      · exact I.small z h
      · rw [h]
        exact hx
    · intro j hj
      simp only [VOp.eff, List.length_set] at hj
      simp only [VOp.eff, List.getD_eq_getElem?_getD, List.getElem?_set]
      by_cases h : i = j
      · subst h
        simp [hi]
      · rw [Function.update_of_ne (fun h' => h h'.symm), if_neg h, hA1 j hj, List.getD_eq_getElem?_getD]
    · intro j hj
      simp only [VOp.eff, List.length_set] at hj ⊢
      rw [Function.update_of_ne (by omega)]
      exact hA2 j hj
    · intro z hz
      rcases List.mem_or_eq_of_mem_set hz with h | h
      · exact (I.live z h).imp_right (fun h => by simp [VOp.eff, h])
      · exact .inr (by simp [VOp.eff, h])
  | resize n =>
    obtain ⟨h2, hz⟩ := ho
    simp only at hz
    obtain ⟨v1, m1, e1, I1, hcap, hm1⟩ : ∃ v1 m1, (if n > v.cap then v.allocate (max n (v.cap * 2)) else some v) = some v1 ∧ VInv v1 l r q m1 ∧ n ≤ v1.cap ∧ m1 ≤ max m l.length := by
      by_cases h : n > v.cap
      · rw [if_pos h]
        obtain ⟨v1, e1, I1, hcap⟩ := allocate_ok I (c := max n (v.cap * 2)) (by omega) (by omega) (by omega) (by omega)
        exact ⟨v1, l.length, e1, I1, by omega, by omega⟩
      · rw [if_neg h]
        exact ⟨v, m, rfl, I, by omega, by omega⟩
    refine ⟨{ v1 with size := n }, m1, ?_, ?_, by omega⟩
    · show v.resize n = _
      unfold Vec.resize
      rw [e1]
      rfl
    · simp only [VOp.eff]
      by_cases hn : n ≤ l.length
      · rw [show n - l.length = 0 by omega, List.replicate_zero, List.append_nil, List.drop_zero]
        exact I1.give hn
      · rw [List.take_of_length_le (by omega), List.drop_eq_nil_of_le (by omega), List.nil_append]
        exact I1.grow (by omega) hcap hz
  | reserve n =>
    by_cases h : n ≤ v.cap
    · exact ⟨v, m, by simp only [VOp.run, Vec.reserve, if_pos h], I, by omega⟩
    · have ho' : n ≤ 2 ^ 53 := ho
      obtain ⟨v1, e1, I1, hcap⟩ := allocate_ok I (c := max n (v.cap * 2)) (by omega) (by omega) (by omega) (by omega)
      exact ⟨v1, l.length, by simp only [VOp.run, Vec.reserve, if_neg h, e1], I1, by omega⟩
  | shrink =>
    have hpos : 0 < l.length := List.length_pos_iff.2 ho
    by_cases h : v.size = v.cap
    · exact ⟨v, m, by simp only [VOp.run, Vec.shrink, if_pos h], I, by omega⟩
    · obtain ⟨v1, e1, I1, hcap⟩ := allocate_ok I (c := l.length) (by omega) (by omega) (by omega) (by omega)
      exact ⟨v1, l.length, by rw [VOp.run, Vec.shrink, if_neg h, hs, e1], I1, by omega⟩
  | clear =>
    have := I.give (n := 0) (by omega)
    exact ⟨v.clear, m, rfl, by simpa [VOp.eff, Vec.clear] using this, by omega⟩

theorem eff_length {s : Hist} {o : VOp} (ho : o.ok s) : (o.eff s).live.length ≤ max (s.live.length + 1) (2 ^ 53) := by
  cases o with
  | push x => simp [VOp.eff]
  | pop => simp only [VOp.eff, List.length_dropLast]; omega
  | set i x => simp [VOp.eff]
  | resize n =>
    have h : n ≤ 2 ^ 53 := ho.1
    simp only [VOp.eff, List.length_append, List.length_replicate, List.length_take]; omega
  | reserve n => simp [VOp.eff]
  | shrink => simp [VOp.eff]
  | clear => simp [VOp.eff]

theorem runs_ok : ∀ (ops : List VOp) (v : Vec) (s : Hist) (m : Nat), VInv v s.live s.stale s.seen m → allOk s ops → m + ops.length ≤ 2 ^ 54 →
    s.live.length + ops.length ≤ 2 ^ 54 → ops.length ≤ 2 ^ 53 →
    ∃ v' m', runs v ops = some v' ∧ VInv v' (ops.foldl VOp.eff s).live (ops.foldl VOp.eff s).stale (ops.foldl VOp.eff s).seen m'
  | [], v, s, m, I, _, _, _, _ => ⟨v, m, rfl, I⟩
  | o :: ops, v, s, m, I, hok, h1, h2, h3 => by
    rw [List.length_cons] at h1 h2 h3
    obtain ⟨v1, m1, e1, I1, hm1⟩ := step_ok I (by omega) (by omega) o hok.1
    have hlen := eff_length hok.1
    obtain ⟨v2, m2, e2, I2⟩ := runs_ok ops v1 (o.eff s) m1 I1 hok.2 (by omega) (by omega) (by omega)
    exact ⟨v2, m2, by simp only [runs, e1, Option.bind_some, e2], I2⟩

/-- C68: a `CDRWVector` constructed with `n ≥ 1` elements behaves as a vector for any history of `push_back`, `pop_back`, `set`, `resize`, `reserve`,
`shrink_to_fit` and `clear` that meets `VOp.ok`. Missing: vectors constructed empty (`C68_push_empty_ub`), `shrink_to_fit` of an empty vector
(`C68_shrink_empty_ub`), growing over elements given up (`C68_stale_refuted`), and the histories excluded by C46 (`C46_sparse_partial`). -/
theorem C68_vector_partial (n : Nat) (ops : List VOp) (h0 : 1 ≤ n) (hn : n ≤ 2 ^ 53) (hlen : ops.length ≤ 2 ^ 53) (hok : allOk ⟨List.replicate n 0, [], []⟩ ops) :
    ∃ v v', newVec false n = some v ∧ runs v ops = some v' ∧ v'.size = (ops.foldl VOp.eff ⟨List.replicate n 0, [], []⟩).live.length ∧
      ∀ i, i < v'.size → v'.get i = (ops.foldl VOp.eff ⟨List.replicate n 0, [], []⟩).live[i]? := by
  obtain ⟨a, e, O⟩ := new_ok (n := n) (by omega) (by omega)
  have I : VInv ⟨n, n, a⟩ (List.replicate n 0) [] [] 0 := by
    refine ⟨by simp, by simpa using h0, by simp, by simp only; omega, by simp, ⟨_, O, fun i hi => ?_, fun i _ => Or.inl rfl⟩, by simp, new_clean (show n ≠ 0 by omega) e,
      fun x hx => .inl (List.mem_replicate.1 hx).2⟩
    rw [List.getD_eq_getElem?_getD, List.getElem?_replicate]
    split <;> rfl
  obtain ⟨v', m', e', I'⟩ := runs_ok ops ⟨n, n, a⟩ ⟨List.replicate n 0, [], []⟩ 0 I hok (by omega) (by simp only [List.length_replicate]; omega) hlen
  refine ⟨⟨n, n, a⟩, v', by simp [newVec, e], e', I'.size, ?_⟩
  intro i hi
  rw [I'.size] at hi
  have hc := I'.cap
  have hp := I'.pos
  have hle := I'.le
  obtain ⟨A, hO, hA1, hA2⟩ := I'.ok
  obtain ⟨b1, b2⟩ := sizeBits_spec (n := v'.cap) (by omega) (by omega)
  show v'.arr.get i = _
  rw [get_ok b2 b1 hO (fun i _ => I'.lt hA1 hA2 i) (by omega), hA1 i hi, List.getD_eq_getElem?_getD, List.getElem?_eq_getElem hi]
  rfl

/-- A history for `C68_vector_partial`. -/
example : ∃ v v', newVec false 1 = some v ∧
    runs v [.push 5, .push 6, .push 2000, .pop, .push 1999, .set 0 9, .resize 7, .set 1 7, .reserve 30, .shrink, .push 1, .pop, .resize 3, .push 1025] = some v' ∧
    v'.size = 4 ∧ ∀ i, i < v'.size → v'.get i = ([9, 7, 6, 1025] : List Nat)[i]? := by
  exact C68_vector_partial 1 [.push 5, .push 6, .push 2000, .pop, .push 1999, .set 0 9, .resize 7, .set 1 7, .reserve 30, .shrink, .push 1, .pop, .resize 3, .push 1025]
    (by decide) (by decide) (by decide) (by simp [allOk, VOp.ok, VOp.eff]; decide)

/-- A history in which elements change their bit length. -/
example : ∃ v v', newVec false 1 = some v ∧ runs v [.push 200, .set 1 5, .push 4, .set 1 255, .pop, .push 130, .set 0 1, .push 7, .set 0 2] = some v' ∧
    v'.size = 4 ∧ ∀ i, i < v'.size → v'.get i = ([2, 255, 130, 7] : List Nat)[i]? := by
  exact C68_vector_partial 1 [.push 200, .set 1 5, .push 4, .set 1 255, .pop, .push 130, .set 0 1, .push 7, .set 0 2]
    (by decide) (by decide) (by decide) (by simp [allOk, VOp.ok, VOp.eff]; decide)

/-- C68: `shrink_to_fit` of a vector made empty gives an array of size 0; the next `push_back` writes out of range. -/
theorem C68_shrink_empty_ub (x : Nat) : ∃ v v', newVec false 1 = some v ∧ runs v [.clear, .shrink] = some v' ∧ v'.push x = none := by
  obtain ⟨a, e, _⟩ := new_ok (n := 1) (by decide) (by decide)
  refine ⟨⟨1, 1, a⟩, ⟨0, 0, ⟨0, none⟩⟩, by simp [newVec, e], rfl, rfl⟩

/-- C68: the first `push_back` on an empty vector allocates an array of size 0 and writes out of range. -/
theorem C68_push_empty_ub (x : Nat) : ∃ v, newVec false 0 = some v ∧ v.push x = none := ⟨⟨0, 0, ⟨0, none⟩⟩, rfl, rfl⟩

/-- C68: elements given up by `resize` or `clear` come back when the vector grows again; they are not zero as in a new vector. -/
theorem C68_stale_refuted : ∃ v v', newVec false 2 = some v ∧ ((v.set 1 7).bind (fun v => (v.resize 1).bind (fun v => v.resize 2))) = some v' ∧ v'.get 1 = some 7 := by
  have h : ((newVec false 2).bind (fun v => (((v.set 1 7).bind (fun v => (v.resize 1).bind (fun v => v.resize 2)))).map (fun v' => v'.get 1))) = some (some 7) := by decide +kernel
  obtain ⟨v, e1, h⟩ := Option.bind_eq_some_iff.1 h
  obtain ⟨v', e2, h⟩ := Option.map_eq_some_iff.1 h
  exact ⟨v, v', e1, e2, h⟩

end Verif.CDRW

/-
Helper facts for the initialisable arrays. The in-place array is first treated as a pair of functions: `p x` is the
even cell and `q x` the odd cell of block `x`.
-/
import Verif.IArr.Model

namespace Verif.IArr

def upd (f : Nat → Nat) (i v : Nat) : Nat → Nat := fun j => if j = i then v else f j

theorem upd_same (f : Nat → Nat) (i v : Nat) : upd f i v i = v := if_pos rfl
theorem upd_ne (f : Nat → Nat) {i j : Nat} (v : Nat) (h : j ≠ i) : upd f i v j = f j := if_neg h

/-- Block `x` is chained to block `k` across the border `b`. -/
structure Ch (n b : Nat) (p : Nat → Nat) (x k : Nat) : Prop where
  hx : x < n
  hk : k < n
  px : p x = 2 * k
  pk : p k = 2 * x
  cross : (x < b ∧ b ≤ k) ∨ (k < b ∧ b ≤ x)

theorem Ch_iff (n b : Nat) (p : Nat → Nat) (x k : Nat) : Ch n b p x k ↔
    x < n ∧ k < n ∧ p x = 2 * k ∧ p k = 2 * x ∧ ((x < b ∧ b ≤ k) ∨ (k < b ∧ b ≤ x)) :=
  ⟨fun ⟨a, b, c, d, e⟩ => ⟨a, b, c, d, e⟩, fun ⟨a, b, c, d, e⟩ => ⟨a, b, c, d, e⟩⟩

instance (n b : Nat) (p : Nat → Nat) (x k : Nat) : Decidable (Ch n b p x k) := decidable_of_iff' _ (Ch_iff n b p x k)

def chF (n b : Nat) (p : Nat → Nat) (x : Nat) : Option Nat := if Ch n b p x (p x / 2) then some (p x / 2) else none

theorem chF_some {n b : Nat} {p : Nat → Nat} {x k : Nat} : chF n b p x = some k ↔ Ch n b p x k := by
  unfold chF
  constructor
  · intro h
    split at h
    · rename_i hc; rw [← Option.some.inj h]; exact hc
    · exact absurd h (by simp)
  · intro h
    have : p x / 2 = k := by have := h.px; omega
    rw [this, if_pos h]

theorem chF_none {n b : Nat} {p : Nat → Nat} {x : Nat} : chF n b p x = none ↔ ∀ k, ¬ Ch n b p x k := by
  constructor
  · intro h k hk
    rw [chF_some.2 hk] at h
    exact absurd h (by simp)
  · intro h
    cases hc : chF n b p x with
    | none => rfl
    | some k => exact absurd (chF_some.1 hc) (h k)

theorem Ch.symm {n b : Nat} {p : Nat → Nat} {x k : Nat} (h : Ch n b p x k) : Ch n b p k x :=
  ⟨h.hk, h.hx, h.pk, h.px, h.cross.symm⟩

theorem Ch.partner {n b : Nat} {p : Nat → Nat} {x k m : Nat} (h : Ch n b p x k) (h2 : Ch n b p x m) : k = m := by
  have := h.px; have := h2.px; omega

theorem Ch_upd (n b : Nat) (p : Nat → Nat) (x v y k : Nat) :
    (Ch n b (upd p x v) y k ∧ y ≠ x ∧ k ≠ x) ↔ (Ch n b p y k ∧ y ≠ x ∧ k ≠ x) := by
  constructor <;> rintro ⟨h, h1, h2⟩ <;> refine ⟨?_, h1, h2⟩ <;> rw [Ch_iff] at * <;> rw [upd_ne _ _ h1, upd_ne _ _ h2] at * <;> exact h

def breakF (n b : Nat) (p : Nat → Nat) (x : Nat) : Nat → Nat :=
  match chF n b p x with
  | some k => upd p k (2 * k)
  | none => p

theorem Ch_break (n b : Nat) (p : Nat → Nat) (x y k : Nat) :
    Ch n b (breakF n b p x) y k ↔ Ch n b p y k ∧ y ≠ x ∧ k ≠ x := by
  unfold breakF
  cases hc : chF n b p x with
  | none =>
    simp only
    rw [chF_none] at hc
    constructor
    · intro h
      exact ⟨h, fun e => hc k (e ▸ h), fun e => hc y (e ▸ h.symm)⟩
    · intro h; exact h.1
  | some m =>
    simp only
    have hm := chF_some.1 hc
    have hmc := hm.cross
    have hpx := hm.px
    have hpm := hm.pk
    constructor
    · intro h
      have hxc := h.cross
      have hy : y ≠ m := by
        rintro rfl
        have h1 := h.px
        rw [upd_same] at h1
        omega
      have hk : k ≠ m := by
        rintro rfl
        have h1 := h.pk
        rw [upd_same] at h1
        omega
      have h1 := h.px
      have h2 := h.pk
      rw [upd_ne _ _ hy] at h1
      rw [upd_ne _ _ hk] at h2
      refine ⟨⟨h.hx, h.hk, h1, h2, h.cross⟩, ?_, ?_⟩
      · rintro rfl; omega
      · rintro rfl; omega
    · rintro ⟨h, h1, h2⟩
      have hy : y ≠ m := by
        rintro rfl
        exact h2 (h.partner hm.symm)
      have hk : k ≠ m := by
        rintro rfl
        exact h1 (h.symm.partner hm.symm)
      exact ⟨h.hx, h.hk, by rw [upd_ne _ _ hy]; exact h.px, by rw [upd_ne _ _ hk]; exact h.pk, h.cross⟩

/-- Breaking the chain of a front block changes no front cell. -/
theorem break_front (n b : Nat) (p : Nat → Nat) (x y : Nat) (hx : x < b) (hy : y < b) : breakF n b p x y = p y := by
  unfold breakF
  cases hc : chF n b p x with
  | none => rfl
  | some m =>
    have hm := (chF_some.1 hc).cross
    exact upd_ne _ _ (by omega)

/-- The two elements of a block. -/
def blk (n b iv : Nat) (p q : Nat → Nat) (x : Nat) : Nat × Nat :=
  if x < b then
    match chF n b p x with
    | some _ => (iv, iv)
    | none => (p x, q x)
  else
    match chF n b p x with
    | some k => (q k, q x)
    | none => (iv, iv)

theorem blk_fc {n b iv : Nat} {p q : Nat → Nat} {x k : Nat} (hx : x < b) (h : Ch n b p x k) : blk n b iv p q x = (iv, iv) := by
  unfold blk; rw [if_pos hx, chF_some.2 h]

theorem blk_fu {n b iv : Nat} {p q : Nat → Nat} {x : Nat} (hx : x < b) (h : ∀ k, ¬ Ch n b p x k) : blk n b iv p q x = (p x, q x) := by
  unfold blk; rw [if_pos hx, chF_none.2 h]

theorem blk_bc {n b iv : Nat} {p q : Nat → Nat} {x k : Nat} (hx : ¬ x < b) (h : Ch n b p x k) : blk n b iv p q x = (q k, q x) := by
  unfold blk; rw [if_neg hx, chF_some.2 h]

theorem blk_bu {n b iv : Nat} {p q : Nat → Nat} {x : Nat} (hx : ¬ x < b) (h : ∀ k, ¬ Ch n b p x k) : blk n b iv p q x = (iv, iv) := by
  unfold blk; rw [if_neg hx, chF_none.2 h]

theorem blk_frame {n b b' iv : Nat} {p q p' q' : Nat → Nat} {y : Nat} (hb : y < b' ↔ y < b)
    (hc : ∀ m, Ch n b' p' y m ↔ Ch n b p y m)
    (hf : y < b → (∀ m, ¬ Ch n b p y m) → p' y = p y ∧ q' y = q y)
    (hk : ∀ m, ¬ y < b → Ch n b p y m → q' m = q m ∧ q' y = q y) :
    blk n b' iv p' q' y = blk n b iv p q y := by
  by_cases h : y < b
  · cases hm : chF n b p y with
    | none =>
      rw [chF_none] at hm
      rw [blk_fu h hm, blk_fu (hb.2 h) (fun k hk => hm k ((hc k).1 hk)), (hf h hm).1, (hf h hm).2]
    | some k =>
      rw [chF_some] at hm
      rw [blk_fc h hm, blk_fc (hb.2 h) ((hc k).2 hm)]
  · have h' : ¬ y < b' := fun a => h (hb.1 a)
    cases hm : chF n b p y with
    | none =>
      rw [chF_none] at hm
      rw [blk_bu h hm, blk_bu h' (fun k hk => hm k ((hc k).1 hk))]
    | some k =>
      rw [chF_some] at hm
      rw [blk_bc h hm, blk_bc h' ((hc k).2 hm), (hk k h hm).1, (hk k h hm).2]

/-- Replace one of the two elements. -/
def put2 (c : Nat × Nat) (odd : Bool) (v : Nat) : Nat × Nat := if odd then (c.1, v) else (v, c.2)

/-- Writing a cell. -/
def putP (p : Nat → Nat) (odd : Bool) (x v : Nat) : Nat → Nat := if odd then p else upd p x v
def putQ (q : Nat → Nat) (odd : Bool) (x v : Nat) : Nat → Nat := if odd then upd q x v else q

theorem Ch_putP (n b : Nat) (p : Nat → Nat) (odd : Bool) (x v y k : Nat) :
    (Ch n b (putP p odd x v) y k ∧ y ≠ x ∧ k ≠ x) ↔ (Ch n b p y k ∧ y ≠ x ∧ k ≠ x) := by
  unfold putP
  split
  · exact Iff.rfl
  · exact Ch_upd n b p x v y k

theorem putP_ne (p : Nat → Nat) (odd : Bool) {x y : Nat} (v : Nat) (h : y ≠ x) : putP p odd x v y = p y := by
  unfold putP; split
  · rfl
  · exact upd_ne _ _ h

theorem putQ_ne (p : Nat → Nat) (odd : Bool) {x y : Nat} (v : Nat) (h : y ≠ x) : putQ p odd x v y = p y := by
  unfold putQ; split
  · exact upd_ne _ _ h
  · rfl

theorem putPQ_same (p q : Nat → Nat) (odd : Bool) (x v : Nat) : (putP p odd x v x, putQ q odd x v x) = put2 (p x, q x) odd v := by
  unfold putP putQ put2
  cases odd
  · simp [upd_same]
  · simp [upd_same]

/-- Writing to an unchained front block. -/
theorem caseA {n b iv : Nat} {p q : Nat → Nat} {x : Nat} (odd : Bool) (v : Nat) (hx : x < b) (hu : ∀ k, ¬ Ch n b p x k) (y : Nat) :
    blk n b iv (breakF n b (putP p odd x v) x) (putQ q odd x v) y =
      if y = x then put2 (blk n b iv p q x) odd v else blk n b iv p q y := by
  have hch : ∀ y m, Ch n b (breakF n b (putP p odd x v) x) y m ↔ Ch n b p y m := by
    intro y m
    rw [Ch_break, Ch_putP]
    exact ⟨fun h => h.1, fun h => ⟨h, fun e => hu m (e ▸ h), fun e => hu y (e ▸ h.symm)⟩⟩
  by_cases hy : y = x
  · subst hy
    rw [if_pos rfl, blk_fu hx (fun k hk => hu k ((hch y k).1 hk)), blk_fu hx hu, break_front _ _ _ _ _ hx hx, putPQ_same]
  · rw [if_neg hy]
    apply blk_frame Iff.rfl (hch y)
    · intro hyb _
      rw [break_front _ _ _ _ _ hx hyb, putP_ne _ _ _ hy, putQ_ne _ _ _ hy]
      exact ⟨rfl, rfl⟩
    · intro m _ hm
      have : m ≠ x := fun e => hu y (e ▸ hm.symm)
      rw [putQ_ne _ _ _ this, putQ_ne _ _ _ hy]
      exact ⟨rfl, rfl⟩

/-- `_extend` on the functions. -/
def extF (n b iv : Nat) (p q : Nat → Nat) : (Nat → Nat) × (Nat → Nat) × Nat :=
  match chF n b p b with
  | none => (breakF n (b + 1) (upd p b iv) b, upd q b iv, b)
  | some k => (breakF n (b + 1) (upd (breakF n (b + 1) (upd p b (q k)) b) k iv) k, upd q k iv, k)

theorem ext_spec (n b iv : Nat) (p q : Nat → Nat) :
    (∀ y m, Ch n (b + 1) (extF n b iv p q).1 y m ↔ Ch n b p y m ∧ y ≠ b ∧ m ≠ b) ∧
    (∀ y, blk n (b + 1) iv (extF n b iv p q).1 (extF n b iv p q).2.1 y = blk n b iv p q y) ∧
    (extF n b iv p q).2.2 < b + 1 ∧
    (∀ m, ¬ Ch n (b + 1) (extF n b iv p q).1 (extF n b iv p q).2.2 m) ∧
    (extF n b iv p q).1 (extF n b iv p q).2.2 = iv ∧ (extF n b iv p q).2.1 (extF n b iv p q).2.2 = iv ∧
    (chF n b p b = none → (extF n b iv p q).2.2 = b) ∧ (∀ k, chF n b p b = some k → (extF n b iv p q).2.2 = k) := by
  have hbord : ∀ (p : Nat → Nat) y m, (Ch n (b + 1) p y m ∧ y ≠ b ∧ m ≠ b) ↔ (Ch n b p y m ∧ y ≠ b ∧ m ≠ b) := by
    intro p y m
    constructor
    · rintro ⟨h, h1, h2⟩; exact ⟨⟨h.hx, h.hk, h.px, h.pk, by have := h.cross; omega⟩, h1, h2⟩
    · rintro ⟨h, h1, h2⟩; exact ⟨⟨h.hx, h.hk, h.px, h.pk, by have := h.cross; omega⟩, h1, h2⟩
  unfold extF
  cases hc : chF n b p b with
  | none =>
    simp only
    rw [chF_none] at hc
    have hch : ∀ y m, Ch n (b + 1) (breakF n (b + 1) (upd p b iv) b) y m ↔ Ch n b p y m ∧ y ≠ b ∧ m ≠ b := by
      intro y m
      rw [Ch_break, Ch_upd, hbord]
    have hp : breakF n (b + 1) (upd p b iv) b b = iv := by
      rw [break_front _ _ _ _ _ (by omega) (by omega), upd_same]
    refine ⟨hch, ?_, by omega, fun m h => ((hch b m).1 h).2.1 rfl, hp, upd_same _ _ _, by simp, by simp⟩
    intro y
    by_cases hy : y = b
    · subst hy
      rw [blk_fu (by omega) (fun m h => ((hch y m).1 h).2.1 rfl), blk_bu (by omega) hc, hp, upd_same]
    · apply blk_frame (by omega)
      · intro m
        rw [hch]
        exact ⟨fun h => h.1, fun h => ⟨h, hy, fun e => hc y (e ▸ h.symm)⟩⟩
      · intro hyb _
        rw [break_front _ _ _ _ _ (by omega) (by omega), upd_ne _ _ hy, upd_ne _ _ hy]
        exact ⟨rfl, rfl⟩
      · intro m _ h
        have := h.cross
        rw [upd_ne _ _ hy, upd_ne _ _ (by omega)]
        exact ⟨rfl, rfl⟩
  | some k =>
    simp only
    rw [chF_some] at hc
    have hkb : k < b := by have := hc.cross; omega
    have hch : ∀ y m, Ch n (b + 1) (breakF n (b + 1) (upd (breakF n (b + 1) (upd p b (q k)) b) k iv) k) y m ↔ Ch n b p y m ∧ y ≠ b ∧ m ≠ b := by
      intro y m
      rw [Ch_break, Ch_upd, Ch_break, Ch_upd, hbord]
      constructor
      · exact fun h => h.1
      · rintro ⟨h, h1, h2⟩
        refine ⟨⟨h, h1, h2⟩, ?_, ?_⟩
        · rintro rfl; exact h2 (h.partner hc.symm)
        · rintro rfl; exact h1 (h.symm.partner hc.symm)
    have hfr : ∀ y, y < b + 1 → breakF n (b + 1) (upd (breakF n (b + 1) (upd p b (q k)) b) k iv) k y = upd (upd p b (q k)) k iv y := by
      intro y hy
      rw [break_front _ _ _ _ _ (by omega) hy]
      unfold upd
      split
      · rfl
      · rw [break_front _ _ _ _ _ (by omega) hy]
    have hkn : ∀ m, ¬ Ch n (b + 1) (breakF n (b + 1) (upd (breakF n (b + 1) (upd p b (q k)) b) k iv) k) k m := by
      intro m h
      obtain ⟨h1, _, h3⟩ := (hch k m).1 h
      exact h3 (h1.partner hc.symm)
    refine ⟨hch, ?_, by omega, hkn, by rw [hfr k (by omega), upd_same], upd_same _ _ _, by simp, by simp⟩
    intro y
    by_cases hy : y = b
    · subst hy
      rw [blk_fu (by omega) (fun m h => ((hch y m).1 h).2.1 rfl), blk_bc (by omega) hc, hfr y (by omega),
        upd_ne _ _ (by omega), upd_same, upd_ne _ _ (by omega)]
    · by_cases hyk : y = k
      · subst hyk
        rw [blk_fu (by omega) hkn, blk_fc hkb hc.symm, hfr y (by omega), upd_same, upd_same]
      · apply blk_frame (by omega)
        · intro m
          rw [hch]
          exact ⟨fun h => h.1, fun h => ⟨h, hy, fun e => hyk ((e ▸ h : Ch n b p y b).symm.partner hc)⟩⟩
        · intro hyb _
          rw [hfr y (by omega), upd_ne _ _ hyk, upd_ne _ _ hy, upd_ne _ _ hyk]
          exact ⟨rfl, rfl⟩
        · intro m _ h
          have hm : m ≠ k := by
            rintro rfl; exact hy (h.symm.partner hc.symm)
          rw [upd_ne _ _ hyk, upd_ne _ _ hm]
          exact ⟨rfl, rfl⟩

theorem Ch_make (n b : Nat) (p : Nat → Nat) (i j : Nat) (hi : i < b) (hj : b ≤ j) (hjn : j < n) (hin : i < n) (y m : Nat) :
    Ch n b (upd (upd p i (2 * j)) j (2 * i)) y m ↔
      (y = i ∧ m = j) ∨ (y = j ∧ m = i) ∨ (Ch n b p y m ∧ y ≠ i ∧ y ≠ j ∧ m ≠ i ∧ m ≠ j) := by
  have hij : i ≠ j := by omega
  have e1 : upd (upd p i (2 * j)) j (2 * i) i = 2 * j := by rw [upd_ne _ _ hij, upd_same]
  have e2 : upd (upd p i (2 * j)) j (2 * i) j = 2 * i := upd_same _ _ _
  have e3 : ∀ z, z ≠ i → z ≠ j → upd (upd p i (2 * j)) j (2 * i) z = p z := fun z h1 h2 => by rw [upd_ne _ _ h2, upd_ne _ _ h1]
  constructor
  · intro h
    have hpx := h.px
    have hpk := h.pk
    by_cases h1 : y = i
    · rw [h1, e1] at hpx; exact Or.inl ⟨h1, by omega⟩
    · by_cases h2 : y = j
      · rw [h2, e2] at hpx; exact Or.inr (Or.inl ⟨h2, by omega⟩)
      · have h3 : m ≠ i := by rintro rfl; rw [e1] at hpk; omega
        have h4 : m ≠ j := by rintro rfl; rw [e2] at hpk; omega
        rw [e3 y h1 h2] at hpx
        rw [e3 m h3 h4] at hpk
        exact Or.inr (Or.inr ⟨⟨h.hx, h.hk, hpx, hpk, h.cross⟩, h1, h2, h3, h4⟩)
  · rintro (⟨rfl, rfl⟩ | ⟨rfl, rfl⟩ | ⟨h, h1, h2, h3, h4⟩)
    · exact ⟨hin, hjn, e1, e2, by omega⟩
    · exact ⟨hjn, hin, e2, e1, by omega⟩
    · exact ⟨h.hx, h.hk, by rw [e3 y h1 h2]; exact h.px, by rw [e3 m h3 h4]; exact h.pk, h.cross⟩

/-- Moving the chain partner of `x` to `j` and writing to `x`. -/
theorem caseB {n b iv : Nat} {p q : Nat → Nat} {x k j : Nat} (odd : Bool) (v : Nat) (hx : x < b) (hc : Ch n b p x k)
    (hj : j < b) (hjn : j < n) (hju : ∀ m, ¬ Ch n b p j m) (hpj : p j = iv) (hqj : q j = iv) (hxj : x ≠ j) (y : Nat) :
    blk n b iv (breakF n b (putP (upd (upd (upd (upd p j (p x)) j (2 * k)) k (2 * j)) x iv) odd x v) x)
      (putQ (upd (upd q j (q x)) x iv) odd x v) y =
      if y = x then put2 (blk n b iv p q x) odd v else blk n b iv p q y := by
  have hbk : b ≤ k := by have := hc.cross; omega
  have hkj : k ≠ j := by omega
  have hkx : k ≠ x := by omega
  have hch : ∀ y m, Ch n b (breakF n b (putP (upd (upd (upd (upd p j (p x)) j (2 * k)) k (2 * j)) x iv) odd x v) x) y m ↔
      (y = j ∧ m = k) ∨ (y = k ∧ m = j) ∨ (Ch n b p y m ∧ y ≠ x ∧ m ≠ x) := by
    intro y m
    rw [Ch_break, Ch_putP, Ch_upd, Ch_make _ _ _ _ _ hj hbk hc.hk hjn]
    constructor
    · rintro ⟨h, h1, h2⟩
      rcases h with h | h | ⟨h, h3, h4, h5, h6⟩
      · exact Or.inl h
      · exact Or.inr (Or.inl h)
      · have := (Ch_upd n b p j (p x) y m).1 ⟨h, h3, h5⟩
        exact Or.inr (Or.inr ⟨this.1, h1, h2⟩)
    · rintro (⟨rfl, rfl⟩ | ⟨rfl, rfl⟩ | ⟨h, h1, h2⟩)
      · exact ⟨Or.inl ⟨rfl, rfl⟩, hxj.symm, hkx⟩
      · exact ⟨Or.inr (Or.inl ⟨rfl, rfl⟩), hkx, hxj.symm⟩
      · refine ⟨Or.inr (Or.inr ?_), h1, h2⟩
        have h3 : y ≠ j := fun e => hju m (e ▸ h)
        have h5 : m ≠ j := fun e => hju y (e ▸ h.symm)
        have h4 : y ≠ k := by rintro rfl; exact h2 (h.partner hc.symm)
        have h6 : m ≠ k := by rintro rfl; exact h1 (h.symm.partner hc.symm)
        exact ⟨((Ch_upd n b p j (p x) y m).2 ⟨h, h3, h5⟩).1, h3, h4, h5, h6⟩
  have hfr : ∀ y, y < b → y ≠ x → y ≠ j →
      breakF n b (putP (upd (upd (upd (upd p j (p x)) j (2 * k)) k (2 * j)) x iv) odd x v) x y = p y := by
    intro y hy h1 h2
    rw [break_front _ _ _ _ _ hx hy, putP_ne _ _ _ h1, upd_ne _ _ h1, upd_ne _ _ (by omega), upd_ne _ _ h2, upd_ne _ _ h2]
  have hq : ∀ y, y ≠ x → y ≠ j → putQ (upd (upd q j (q x)) x iv) odd x v y = q y := by
    intro y h1 h2
    rw [putQ_ne _ _ _ h1, upd_ne _ _ h1, upd_ne _ _ h2]
  have hqj2 : putQ (upd (upd q j (q x)) x iv) odd x v j = q x := by
    rw [putQ_ne _ _ _ hxj.symm, upd_ne _ _ hxj.symm, upd_same]
  by_cases hy : y = x
  · subst hy
    rw [if_pos rfl, blk_fc hx hc, blk_fu hx, break_front _ _ _ _ _ hx hx, putPQ_same, upd_same, upd_same]
    intro m h
    rcases (hch y m).1 h with ⟨h1, _⟩ | ⟨h1, _⟩ | ⟨_, h1, _⟩
    · exact hxj h1
    · exact hkx h1.symm
    · exact h1 rfl
  · rw [if_neg hy]
    by_cases h1 : y = j
    · subst h1
      rw [blk_fu hj hju, hpj, hqj, blk_fc hj ((hch y k).2 (Or.inl ⟨rfl, rfl⟩))]
    · by_cases h2 : y = k
      · subst h2
        rw [blk_bc (by omega) hc.symm, blk_bc (by omega) ((hch y j).2 (Or.inr (Or.inl ⟨rfl, rfl⟩))), hqj2, hq y hkx hkj]
      · apply blk_frame Iff.rfl
        · intro m
          rw [hch]
          constructor
          · rintro (⟨h, _⟩ | ⟨h, _⟩ | ⟨h, _⟩)
            · exact absurd h h1
            · exact absurd h h2
            · exact h
          · intro h
            refine Or.inr (Or.inr ⟨h, hy, ?_⟩)
            rintro rfl
            exact h2 (h.symm.partner hc)
        · intro hyb _
          exact ⟨hfr y hyb hy h1, hq y hy h1⟩
        · intro m hyb h
          refine ⟨hq m ?_ ?_, hq y hy h1⟩
          · rintro rfl; exact h2 (h.symm.partner hc)
          · rintro rfl; exact hju y h.symm

/-- Writing to a chained back block. -/
theorem caseC {n b iv : Nat} {p q : Nat → Nat} {x k : Nat} (odd : Bool) (v : Nat) (hx : ¬ x < b) (hc : Ch n b p x k) (y : Nat) :
    blk n b iv p (if odd then upd q x v else upd q k v) y =
      if y = x then put2 (blk n b iv p q x) odd v else blk n b iv p q y := by
  have hk : k < b := by have := hc.cross; omega
  by_cases hy : y = x
  · subst hy
    rw [if_pos rfl, blk_bc hx hc, blk_bc hx hc]
    unfold put2
    cases odd
    · simp only [Bool.false_eq_true, if_false]; rw [upd_same, upd_ne _ _ (by omega)]
    · simp only [if_true]; rw [upd_same, upd_ne _ _ (by omega)]
  · rw [if_neg hy]
    have hne : ∀ z, z ≠ x → z ≠ k → (if odd then upd q x v else upd q k v) z = q z := by
      intro z h1 h2
      cases odd
      · simp only [Bool.false_eq_true, if_false]; rw [upd_ne _ _ h2]
      · simp only [if_true]; rw [upd_ne _ _ h1]
    by_cases h2 : y = k
    · subst h2
      rw [blk_fc hk hc.symm, blk_fc hk hc.symm]
    · apply blk_frame Iff.rfl (fun _ => Iff.rfl)
      · intro _ _; exact ⟨rfl, hne y hy h2⟩
      · intro m hyb h
        have := h.cross
        refine ⟨hne m (by omega) ?_, hne y hy h2⟩
        rintro rfl
        exact hy (h.symm.partner hc.symm)

/-- Chaining an unwritten back block to the free front block `k` and writing to it. -/
theorem caseD {n b iv : Nat} {p q : Nat → Nat} {x k : Nat} (odd : Bool) (v : Nat) (hx : ¬ x < b) (hxn : x < n) (hu : ∀ m, ¬ Ch n b p x m)
    (hk : k < b) (hkn : k < n) (hku : ∀ m, ¬ Ch n b p k m) (hpk : p k = iv) (hqk : q k = iv) (y : Nat) :
    blk n b iv (upd (upd (upd p x iv) k (2 * x)) x (2 * k)) (if odd then upd (upd q x iv) x v else upd (upd q x iv) k v) y =
      if y = x then put2 (blk n b iv p q x) odd v else blk n b iv p q y := by
  have hkx : k ≠ x := by omega
  have hch : ∀ y m, Ch n b (upd (upd (upd p x iv) k (2 * x)) x (2 * k)) y m ↔ (y = k ∧ m = x) ∨ (y = x ∧ m = k) ∨ Ch n b p y m := by
    intro y m
    rw [Ch_make _ _ _ _ _ hk (by omega) hxn hkn]
    apply or_congr Iff.rfl
    apply or_congr Iff.rfl
    constructor
    · rintro ⟨h, h1, h2, h3, h4⟩
      exact ((Ch_upd n b p x iv y m).1 ⟨h, h2, h4⟩).1
    · intro h
      have h1 : y ≠ k := fun e => hku m (e ▸ h)
      have h2 : y ≠ x := fun e => hu m (e ▸ h)
      have h3 : m ≠ k := fun e => hku y (e ▸ h.symm)
      have h4 : m ≠ x := fun e => hu y (e ▸ h.symm)
      exact ⟨((Ch_upd n b p x iv y m).2 ⟨h, h2, h4⟩).1, h1, h2, h3, h4⟩
  by_cases hy : y = x
  · subst hy
    rw [if_pos rfl, blk_bu hx hu, blk_bc hx ((hch y k).2 (Or.inr (Or.inl ⟨rfl, rfl⟩)))]
    unfold put2
    cases odd
    · simp only [Bool.false_eq_true, if_false]; rw [upd_same, upd_ne _ _ hkx.symm, upd_same]
    · simp only [if_true]; rw [upd_same, upd_ne _ _ hkx, upd_ne _ _ hkx, hqk]
  · rw [if_neg hy]
    have hne : ∀ z, z ≠ x → z ≠ k → (if odd then upd (upd q x iv) x v else upd (upd q x iv) k v) z = q z := by
      intro z h1 h2
      cases odd
      · simp only [Bool.false_eq_true, if_false]; rw [upd_ne _ _ h2, upd_ne _ _ h1]
      · simp only [if_true]; rw [upd_ne _ _ h1, upd_ne _ _ h1]
    by_cases h2 : y = k
    · subst h2
      rw [blk_fu hk hku, hpk, hqk, blk_fc hk ((hch y x).2 (Or.inl ⟨rfl, rfl⟩))]
    · apply blk_frame Iff.rfl
      · intro m
        rw [hch]
        constructor
        · rintro (⟨h, _⟩ | ⟨h, _⟩ | h)
          · exact absurd h h2
          · exact absurd h hy
          · exact h
        · exact fun h => Or.inr (Or.inr h)
      · intro hyb _
        rw [upd_ne _ _ hy, upd_ne _ _ h2, upd_ne _ _ hy]
        exact ⟨rfl, hne y hy h2⟩
      · intro m hyb h
        exact ⟨hne m (fun e => hu y (e ▸ h.symm)) (fun e => hku y (e ▸ h.symm)), hne y hy h2⟩

/-! ### From lists to functions -/

structure Rep (n : Nat) (s : Arr) (p q : Nat → Nat) : Prop where
  len : s.a.length = 2 * n
  ev : ∀ x, x < n → s.a[2 * x]? = some (p x)
  od : ∀ x, x < n → s.a[2 * x + 1]? = some (q x)

theorem Rep.exists (n : Nat) (s : Arr) (h : s.a.length = 2 * n) : ∃ p q, Rep n s p q := by
  refine ⟨fun x => s.a.getD (2 * x) 0, fun x => s.a.getD (2 * x + 1) 0, h, ?_, ?_⟩
  · intro x hx
    rw [List.getD_eq_getElem?_getD, List.getElem?_eq_getElem (by omega)]; rfl
  · intro x hx
    rw [List.getD_eq_getElem?_getD, List.getElem?_eq_getElem (by omega)]; rfl

theorem Rep.border {n : Nat} {s : Arr} {p q : Nat → Nat} (h : Rep n s p q) (b : Nat) : Rep n { s with b := b } p q :=
  ⟨h.len, h.ev, h.od⟩

theorem Rep.chained {n : Nat} {s : Arr} {p q : Nat → Nat} (h : Rep n s p q) (x : Nat) (hx : x < n) :
    s.chainedTo n x = some (chF n s.b p x) := by
  unfold Arr.chainedTo Arr.to
  simp only [h.ev x hx, Option.bind_eq_bind, Option.bind_some, Option.pure_def]
  unfold chF
  by_cases h1 : p x < 2 * n
  · rw [if_pos h1]
    by_cases h2 : p x % 2 = 0
    · rw [if_pos h2]
      have h3 := h.ev (p x / 2) (by omega)
      rw [show 2 * (p x / 2) = p x by omega] at h3
      simp only [h3, Option.bind_some]
      by_cases h4 : p (p x / 2) = 2 * x ∧ ((x < s.b ∧ s.b ≤ p x / 2) ∨ (p x / 2 < s.b ∧ s.b ≤ x))
      · rw [if_pos h4, if_pos ⟨hx, by omega, by omega, h4.1, h4.2⟩]
      · rw [if_neg h4, if_neg (fun hc => h4 ⟨hc.pk, hc.cross⟩)]
    · rw [if_neg h2, if_neg (fun hc => h2 (by have := hc.px; omega))]
  · rw [if_neg h1, if_neg (fun hc => h1 (by have := hc.px; have := hc.hk; omega))]

theorem Rep.putEv {n : Nat} {s : Arr} {p q : Nat → Nat} (h : Rep n s p q) (x v : Nat) (hx : x < n) :
    ∃ s', s.put (2 * x) v = some s' ∧ Rep n s' (upd p x v) q ∧ s'.b = s.b ∧ s'.init = s.init := by
  refine ⟨{ s with a := s.a.set (2 * x) v }, by simp [Arr.put, wr, h.len, hx], ⟨by simp [h.len], ?_, ?_⟩, rfl, rfl⟩
  · intro y hy
    simp only [List.getElem?_set, upd]
    by_cases e : y = x
    · subst e; simp [h.len, hy]
    · rw [if_neg (by omega), if_neg e, h.ev y hy]
  · intro y hy
    simp only [List.getElem?_set]
    rw [if_neg (by omega), h.od y hy]

theorem Rep.putOd {n : Nat} {s : Arr} {p q : Nat → Nat} (h : Rep n s p q) (x v : Nat) (hx : x < n) :
    ∃ s', s.put (2 * x + 1) v = some s' ∧ Rep n s' p (upd q x v) ∧ s'.b = s.b ∧ s'.init = s.init := by
  have hl : 2 * x + 1 < s.a.length := by rw [h.len]; omega
  refine ⟨{ s with a := s.a.set (2 * x + 1) v }, by simp [Arr.put, wr, hl], ⟨by simp [h.len], ?_, ?_⟩, rfl, rfl⟩
  · intro y hy
    simp only [List.getElem?_set]
    rw [if_neg (by omega), h.ev y hy]
  · intro y hy
    simp only [List.getElem?_set, upd]
    by_cases e : y = x
    · subst e; simp [hl]
    · rw [if_neg (by omega), if_neg e, h.od y hy]

theorem setTo_put (w : Nat) (s : Arr) (i b : Nat) (h : b < 2 ^ w) : s.setTo w i b = s.put i b := by
  unfold Arr.setTo Arr.put; rw [Nat.mod_eq_of_lt h]

theorem Rep.break {w n : Nat} (hw : 2 * n ≤ 2 ^ w) {s : Arr} {p q : Nat → Nat} (h : Rep n s p q) (x : Nat) (hx : x < n) :
    ∃ s', s.breakChain w n x = some s' ∧ Rep n s' (breakF n s.b p x) q ∧ s'.b = s.b ∧ s'.init = s.init := by
  unfold Arr.breakChain
  simp only [h.chained x hx, Option.bind_eq_bind, Option.bind_some]
  unfold breakF
  cases hc : chF n s.b p x with
  | none => exact ⟨s, rfl, h, rfl, rfl⟩
  | some k =>
    have hk := (chF_some.1 hc).hk
    obtain ⟨s', e, r⟩ := h.putEv k (2 * k) hk
    exact ⟨s', by simp only; rw [setTo_put _ _ _ _ (by omega)]; exact e, r⟩

theorem Rep.initBlock {n : Nat} {s : Arr} {p q : Nat → Nat} (h : Rep n s p q) (x : Nat) (hx : x < n) :
    ∃ s', s.initBlock x = some s' ∧ Rep n s' (upd p x s.init) (upd q x s.init) ∧ s'.b = s.b ∧ s'.init = s.init := by
  obtain ⟨s1, e1, r1, b1, i1⟩ := h.putOd x s.init hx
  obtain ⟨s2, e2, r2, b2, i2⟩ := r1.putEv x s1.init hx
  refine ⟨s2, by simp [Arr.initBlock, e1, e2], ?_, by rw [b2, b1], by rw [i2, i1]⟩
  rw [i1] at r2; exact r2

theorem Rep.makeChain {w n : Nat} (hw : 2 * n ≤ 2 ^ w) {s : Arr} {p q : Nat → Nat} (h : Rep n s p q) (i j : Nat) (hi : i < n) (hj : j < n) :
    ∃ s', s.makeChain w i j = some s' ∧ Rep n s' (upd (upd p i (2 * j)) j (2 * i)) q ∧ s'.b = s.b ∧ s'.init = s.init := by
  obtain ⟨s1, e1, r1, b1, i1⟩ := h.putEv i (2 * j) hi
  obtain ⟨s2, e2, r2, b2, i2⟩ := r1.putEv j (2 * i) hj
  refine ⟨s2, ?_, r2, by rw [b2, b1], by rw [i2, i1]⟩
  unfold Arr.makeChain
  rw [setTo_put _ _ _ _ (by omega)]
  simp only [e1, Option.bind_eq_bind, Option.bind_some]
  rw [setTo_put _ _ _ _ (by omega)]
  exact e2

theorem Rep.extend {w n : Nat} (hw : 2 * n ≤ 2 ^ w) {s : Arr} {p q : Nat → Nat} (h : Rep n s p q) (hb : s.b < n) :
    ∃ s', s.extend w n = some (s', (extF n s.b s.init p q).2.2) ∧
      Rep n s' (extF n s.b s.init p q).1 (extF n s.b s.init p q).2.1 ∧ s'.b = s.b + 1 ∧ s'.init = s.init := by
  unfold Arr.extend
  simp only [h.chained s.b hb, Option.bind_eq_bind, Option.bind_some, Option.pure_def]
  unfold extF
  cases hc : chF n s.b p s.b with
  | none =>
    simp only [Option.bind_some, Nat.add_sub_cancel]
    obtain ⟨s1, e1, r1, b1, i1⟩ := (h.border (s.b + 1)).initBlock s.b hb
    obtain ⟨s2, e2, r2, b2, i2⟩ := r1.break hw s.b hb
    simp only [e1, e2, Option.bind_some]
    rw [b1] at r2
    exact ⟨s2, rfl, r2, by rw [b2, b1], by rw [i2, i1]⟩
  | some k =>
    have hk := (chF_some.1 hc).hk
    simp only [h.od k hk, Option.bind_some, Nat.add_sub_cancel]
    obtain ⟨s1, e1, r1, b1, i1⟩ := (h.border (s.b + 1)).putEv s.b (q k) hb
    obtain ⟨s2, e2, r2, b2, i2⟩ := r1.break hw s.b hb
    obtain ⟨s3, e3, r3, b3, i3⟩ := r2.initBlock k hk
    obtain ⟨s4, e4, r4, b4, i4⟩ := r3.break hw k hk
    have hs1 : s1.b - 1 = s.b := by rw [b1]; rfl
    simp only [e1, hs1, e2, e3, e4, Option.bind_some]
    simp only at b1 i1
    rw [b3, b2, b1, i2, i1] at r4
    exact ⟨s4, rfl, r4, by rw [b4, b3, b2, b1], by rw [i4, i3, i2, i1]⟩

theorem putI {n : Nat} {s : Arr} {p q : Nat → Nat} (h : Rep n s p q) (i v : Nat) (hi : i / 2 < n) :
    ∃ s', s.put i v = some s' ∧ Rep n s' (putP p (i % 2 == 1) (i / 2) v) (putQ q (i % 2 == 1) (i / 2) v) ∧ s'.b = s.b ∧ s'.init = s.init := by
  unfold putP putQ
  rcases Nat.mod_two_eq_zero_or_one i with h0 | h1
  · have := h.putEv (i / 2) v hi
    rw [show 2 * (i / 2) = i by omega] at this
    simpa [h0] using this
  · have := h.putOd (i / 2) v hi
    rw [show 2 * (i / 2) + 1 = i by omega] at this
    simpa [h1] using this

theorem Rep.writeUca {w n : Nat} (hw : 2 * n ≤ 2 ^ w) {s : Arr} {p q : Nat → Nat} (h : Rep n s p q) (i v : Nat) (hi : i / 2 < n) :
    ∃ s', s.writeUca w n i v = some s' ∧
      Rep n s' (breakF n s.b (putP p (i % 2 == 1) (i / 2) v) (i / 2)) (putQ q (i % 2 == 1) (i / 2) v) ∧ s'.b = s.b ∧ s'.init = s.init := by
  obtain ⟨s1, e1, r1, b1, i1⟩ := putI h i v hi
  obtain ⟨s2, e2, r2, b2, i2⟩ := r1.break hw (i / 2) hi
  rw [b1] at r2
  exact ⟨s2, by simp [Arr.writeUca, e1, e2], r2, by rw [b2, b1], by rw [i2, i1]⟩

theorem Rep.writeWca {n : Nat} {s : Arr} {p q : Nat → Nat} (h : Rep n s p q) (i k v : Nat) (hi : i / 2 < n) (hk : k < n) :
    ∃ s', s.writeWca i k v = some s' ∧ Rep n s' p (if (i % 2 == 1) = true then upd q (i / 2) v else upd q k v) ∧
      s'.b = s.b ∧ s'.init = s.init := by
  unfold Arr.writeWca
  rcases Nat.mod_two_eq_zero_or_one i with h0 | h1
  · have := h.putOd k v hk
    simpa [h0] using this
  · have := h.putOd (i / 2) v hi
    rw [show 2 * (i / 2) + 1 = i by omega] at this
    simpa [h1] using this

/-- The elements of the array. -/
def elem (c : Nat × Nat) (i : Nat) : Nat := if i % 2 == 1 then c.2 else c.1

theorem Rep.get {n : Nat} {s : Arr} {p q : Nat → Nat} (h : Rep n s p q) (i : Nat) (hi : i / 2 < n) :
    s.get n i = some (elem (blk n s.b s.init p q (i / 2)) i) := by
  have he := h.ev (i / 2) hi
  have ho := h.od (i / 2) hi
  have hcell : s.a[i]? = some (elem (p (i / 2), q (i / 2)) i) := by
    unfold elem
    rcases Nat.mod_two_eq_zero_or_one i with h0 | h1
    · rw [show 2 * (i / 2) = i by omega] at he; simp [h0, he]
    · rw [show 2 * (i / 2) + 1 = i by omega] at ho; simp [h1, ho]
  unfold Arr.get
  simp only [h.chained _ hi, Option.bind_eq_bind, Option.bind_some, Option.pure_def]
  unfold blk
  by_cases hb : i / 2 < s.b
  · rw [if_pos (by omega), if_pos hb]
    cases hc : chF n s.b p (i / 2) with
    | none => simp only [hcell]
    | some k => simp [elem]
  · rw [if_neg (by omega), if_neg hb]
    cases hc : chF n s.b p (i / 2) with
    | none => simp [elem]
    | some k =>
      have hk := chF_some.1 hc
      simp only [hcell, Option.bind_some]
      unfold elem
      rcases Nat.mod_two_eq_zero_or_one i with h0 | h1
      · simp only [h0, if_true, hk.px]
        exact h.od k hk.hk
      · simp only [h1]; rfl

theorem elem_put2 (c : Nat × Nat) (i j v : Nat) (hij : i / 2 = j / 2) :
    elem (put2 c (i % 2 == 1) v) j = if j = i then v else elem c j := by
  unfold elem put2
  rcases Nat.mod_two_eq_zero_or_one i with h0 | h1 <;> rcases Nat.mod_two_eq_zero_or_one j with g0 | g1
  · rw [if_pos (show j = i by omega)]; simp [h0, g0]
  · rw [if_neg (show ¬ j = i by omega)]; simp [h0, g1]
  · rw [if_neg (show ¬ j = i by omega)]; simp [h1, g0]
  · rw [if_pos (show j = i by omega)]; simp [h1, g1]

theorem get_of_blk {n : Nat} {s s' : Arr} {p q p' q' : Nat → Nat} (h : Rep n s p q) (h' : Rep n s' p' q') (i v : Nat)
    (hb : ∀ y, blk n s'.b s'.init p' q' y =
      if y = i / 2 then put2 (blk n s.b s.init p q (i / 2)) (i % 2 == 1) v else blk n s.b s.init p q y) (j : Nat) (hj : j / 2 < n) :
    s'.get n j = if j = i then some v else s.get n j := by
  rw [h'.get j hj, h.get j hj, hb]
  by_cases hji : j / 2 = i / 2
  · rw [if_pos hji, elem_put2 _ _ _ _ hji.symm, hji]
    split <;> rfl
  · rw [if_neg hji, if_neg (by rintro rfl; exact hji rfl)]

/-- `set` changes exactly the element it is asked to change, whatever the memory contents. -/
theorem set_spec {w n : Nat} (hw : 2 * n ≤ 2 ^ w) (s : Arr) (hl : s.a.length = 2 * n) (hbn : s.b ≤ n) (i v : Nat) (hi : i / 2 < n) :
    ∃ s', s.set w n i v = some s' ∧ s'.a.length = 2 * n ∧ s'.b ≤ n ∧ s'.init = s.init ∧
      ∀ j, j / 2 < n → s'.get n j = if j = i then some v else s.get n j := by
  obtain ⟨p, q, h⟩ := Rep.exists n s hl
  unfold Arr.set
  simp only [h.chained _ hi, Option.bind_eq_bind, Option.bind_some]
  obtain ⟨x1, x2, x3, x4, x5, x6, x7, x8⟩ := ext_spec n s.b s.init p q
  by_cases hb : i / 2 < s.b
  · rw [if_pos hb]
    cases hc : chF n s.b p (i / 2) with
    | none =>
      obtain ⟨s', e, r, b, iv⟩ := h.writeUca hw i v hi
      refine ⟨s', e, r.len, by omega, iv, get_of_blk h r i v ?_⟩
      rw [b, iv]
      exact caseA _ v hb (chF_none.1 hc)
    | some k =>
      have hk := chF_some.1 hc
      have hkc := hk.cross
      have hkn := hk.hk
      have hsb : s.b < n := by omega
      obtain ⟨s1, e1, r1, b1, i1⟩ := h.extend hw hsb
      simp only [e1, Option.bind_some]
      generalize hj : (extF n s.b s.init p q).2.2 = j at *
      generalize (extF n s.b s.init p q).1 = p1 at *
      generalize (extF n s.b s.init p q).2.1 = q1 at *
      by_cases hij : i / 2 = j
      · rw [if_pos hij]
        obtain ⟨s', e, r, b, iv⟩ := r1.writeUca hw i v hi
        refine ⟨s', e, r.len, by omega, by rw [iv, i1], get_of_blk h r i v ?_⟩
        intro y
        rw [b, iv, b1, i1, caseA _ v (by omega) (by rw [hij]; exact x4), x2, x2]
      · rw [if_neg hij]
        have hjn : j < n := by omega
        have hk1 : Ch n (s.b + 1) p1 (i / 2) k := by
          refine (x1 _ _).2 ⟨hk, by omega, ?_⟩
          rintro rfl
          exact hij (x8 _ (chF_some.2 hk.symm)).symm
        obtain ⟨s2, e2, r2, b2, i2⟩ := r1.putEv j (p1 (i / 2)) hjn
        obtain ⟨s3, e3, r3, b3, i3⟩ := r2.putOd j (q1 (i / 2)) hjn
        obtain ⟨s4, e4, r4, b4, i4⟩ := r3.makeChain hw j k hjn hkn
        obtain ⟨s5, e5, r5, b5, i5⟩ := r4.initBlock (i / 2) hi
        obtain ⟨s6, e6, r6, b6, i6⟩ := r5.writeUca hw i v hi
        simp only [r1.ev _ hi, e2, r2.od _ hi, e3, e4, e5, e6, Option.bind_some]
        refine ⟨s6, rfl, r6.len, by omega, by rw [i6, i5, i4, i3, i2, i1], get_of_blk h r6 i v ?_⟩
        intro y
        rw [b6, i6, b5, i5, b4, i4, b3, i3, b2, i2, b1, i1,
          caseB _ v (by omega) hk1 (by omega) hjn x4 x5 x6 hij, x2, x2]
  · rw [if_neg hb]
    cases hc : chF n s.b p (i / 2) with
    | some k =>
      have hk := chF_some.1 hc
      obtain ⟨s', e, r, b, iv⟩ := h.writeWca i k v hi hk.hk
      refine ⟨s', e, r.len, by omega, iv, get_of_blk h r i v ?_⟩
      rw [b, iv]
      exact caseC _ v hb hk
    | none =>
      have hsb : s.b < n := by omega
      obtain ⟨s1, e1, r1, b1, i1⟩ := h.extend hw hsb
      simp only [e1, Option.bind_some]
      generalize hj : (extF n s.b s.init p q).2.2 = j at *
      generalize (extF n s.b s.init p q).1 = p1 at *
      generalize (extF n s.b s.init p q).2.1 = q1 at *
      by_cases hij : i / 2 = j
      · rw [if_pos hij]
        obtain ⟨s', e, r, b, iv⟩ := r1.writeUca hw i v hi
        refine ⟨s', e, r.len, by omega, by rw [iv, i1], get_of_blk h r i v ?_⟩
        intro y
        rw [b, iv, b1, i1, caseA _ v (by omega) (by rw [hij]; exact x4), x2, x2]
      · rw [if_neg hij]
        have hjn : j < n := by omega
        have hne : i / 2 ≠ s.b := by
          intro e
          rw [e] at hc hij
          exact hij (x7 hc).symm
        have hu : ∀ m, ¬ Ch n (s.b + 1) p1 (i / 2) m := fun m hm => chF_none.1 hc m ((x1 _ _).1 hm).1
        obtain ⟨s2, e2, r2, b2, i2⟩ := r1.initBlock (i / 2) hi
        obtain ⟨s3, e3, r3, b3, i3⟩ := r2.makeChain hw j (i / 2) hjn hi
        obtain ⟨s4, e4, r4, b4, i4⟩ := r3.writeWca i j v hi hjn
        simp only [e2, e3, e4, Option.bind_some]
        refine ⟨s4, rfl, r4.len, by omega, by rw [i4, i3, i2, i1], get_of_blk h r4 i v ?_⟩
        intro y
        rw [b4, i4, b3, i3, b2, i2, b1, i1, caseD _ v (by omega) hi hu (by omega) hjn x4 x5 x6, x2, x2]

theorem get_fill {n : Nat} (s : Arr) (hl : s.a.length = 2 * n) (v j : Nat) (hj : j / 2 < n) : (s.fill v).get n j = some v := by
  obtain ⟨p, q, h⟩ := Rep.exists n (s.fill v) hl
  rw [h.get j hj]
  have : blk n (s.fill v).b (s.fill v).init p q (j / 2) = (v, v) := by
    apply blk_bu
    · simp [Arr.fill]
    · intro k hk
      have := hk.cross
      simp [Arr.fill] at this
  rw [this]
  simp [elem]

/-! ### Folklore -/

variable {α : Type}

theorem folk_chained (a : Folk α) (i : Nat) (e : Nat × α) (h : a.fv[i]? = some e) :
    a.isChained i = some (decide (a.t[e.1]? = some i)) := by
  unfold Folk.isChained
  simp only [h, Option.bind_eq_bind, Option.bind_some, Option.pure_def]
  by_cases h1 : e.1 < a.t.length
  · rw [if_pos h1, List.getElem?_eq_getElem h1]
    simp only [Option.bind_some, Option.some.injEq]
    rw [Bool.eq_iff_iff, beq_iff_eq, decide_eq_true_iff]
  · rw [if_neg h1, List.getElem?_eq_none (by omega)]
    simp

theorem folk_get (a : Folk α) (i : Nat) (e : Nat × α) (h : a.fv[i]? = some e) :
    a.get i = some (if a.t[e.1]? = some i then e.2 else a.init) := by
  unfold Folk.get
  simp only [folk_chained a i e h, h, Option.bind_eq_bind, Option.bind_some, Option.pure_def]
  by_cases hc : a.t[e.1]? = some i
  · simp [hc]
  · simp [hc]

theorem folk_set (a : Folk α) (i : Nat) (v : α) (hi : i < a.fv.length) :
    ∃ a', a.set i v = some a' ∧ a'.fv.length = a.fv.length ∧ a'.init = a.init ∧
      ∀ j, a'.get j = if j = i then some v else a.get j := by
  obtain ⟨e, he⟩ : ∃ e, a.fv[i]? = some e := ⟨_, List.getElem?_eq_getElem hi⟩
  unfold Folk.set
  simp only [folk_chained a i e he, Option.bind_eq_bind, Option.bind_some, Option.pure_def]
  by_cases hc : a.t[e.1]? = some i
  · simp only [hc, decide_true, if_true, Option.bind_some, he, wr_eq _ _ _ hi]
    refine ⟨_, rfl, by simp, rfl, ?_⟩
    intro j
    by_cases hj : j = i
    · subst hj
      rw [if_pos rfl, folk_get _ j (e.1, v) (by simp [hi])]
      simp [hc]
    · rw [if_neg hj]
      cases hf : a.fv[j]? with
      | none =>
        unfold Folk.get Folk.isChained
        simp [List.getElem?_set, hf, Ne.symm hj]
      | some f =>
        rw [folk_get a j f hf, folk_get _ j f (by simp [List.getElem?_set, hf, Ne.symm hj])]
  · simp only [hc, decide_false, Bool.false_eq_true, if_false, Option.bind_some, he, wr_eq _ _ _ hi]
    have h1 : (a.fv.set i (a.t.length, e.2))[i]? = some (a.t.length, e.2) := by simp [hi]
    have hi2 : i < (a.fv.set i (a.t.length, e.2)).length := by simpa using hi
    simp only [h1, Option.bind_some, wr_eq _ _ _ hi2]
    refine ⟨_, rfl, by simp, rfl, ?_⟩
    intro j
    by_cases hj : j = i
    · subst hj
      rw [if_pos rfl, folk_get _ j (a.t.length, v) (by simp [hi])]
      simp
    · rw [if_neg hj]
      cases hf : a.fv[j]? with
      | none =>
        unfold Folk.get Folk.isChained
        simp [List.getElem?_set, hf, Ne.symm hj]
      | some f =>
        rw [folk_get a j f hf, folk_get _ j f (by simp [List.getElem?_set, hf, Ne.symm hj])]
        have hiff : (a.t ++ [i])[f.1]? = some j ↔ a.t[f.1]? = some j := by
          rw [List.getElem?_append]
          by_cases hlt : f.1 < a.t.length
          · rw [if_pos hlt]
          · rw [if_neg hlt, List.getElem?_eq_none (l := a.t) (by omega)]
            constructor
            · intro h
              have := List.mem_of_getElem? h
              simp only [List.mem_singleton] at this
              exact absurd this hj
            · intro h; exact absurd h (by simp)
        by_cases hcc : a.t[f.1]? = some j
        · simp only [hiff.2 hcc, hcc, if_true]
        · simp only [hcc, mt hiff.1 hcc, if_false]

end Verif.IArr

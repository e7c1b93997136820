/-
Property theorems C24-C27 (FitVector).
-/
import Verif.Fit.Lemmas

namespace Verif.Fit
open Verif.Bits Verif.Serial Verif.BV

/-! ### C24: element write and read -/

/-- Any packed contents: the mask belongs to the width and the storage has the words `resize` gives it;
the contents of the words are arbitrary. -/
theorem C24_write_read (v : FVec) (h1 : 1 ≤ v.width) (h63 : v.width ≤ 63) (hm : widthMask v.width = some v.mask)
    (hlen : 64 * v.words.length ≥ v.size * v.width) (i x : Nat) (hi : i < v.size) (hx : x < 2 ^ v.width) :
    ∃ v', v.set i x = some v' ∧ v'.size = v.size ∧ v'.width = v.width ∧ v'.get i = some x ∧
      ∀ j, j < v.size → j ≠ i → ∃ y, v.get j = some y ∧ v'.get j = some y := by
  obtain ⟨m, e, hb⟩ := C09_widthMask v.width (by omega)
  rw [hm] at e
  obtain rfl := Option.some.inj e
  have hsl := slot_le v.width hi
  obtain ⟨ws, e, hl, hbits⟩ := wrBits_spec v.words (i * v.width) v.width v.mask hb h1 h63 (by omega) x hx
  refine ⟨{ v with words := ws }, by simp [FVec.set, e], rfl, rfl, ?_, ?_⟩
  · obtain ⟨y, e2, hy⟩ := rdBits_spec ws (i * v.width) v.width v.mask hb h1 h63 (by omega)
    have : valAt ws (i * v.width) v.width = x := by
      apply valAt_eq _ _ _ _ hx
      intro k hk
      rw [hbits, if_pos (by omega)]
      congr 1; omega
    simp [FVec.get, e2, hy, this]
  · intro j hj hne
    have hsj := slot_le v.width hj
    obtain ⟨y, e2, hy⟩ := rdBits_spec v.words (j * v.width) v.width v.mask hb h1 h63 (by omega)
    obtain ⟨y', e3, hy'⟩ := rdBits_spec ws (j * v.width) v.width v.mask hb h1 h63 (by omega)
    refine ⟨y.toNat, by simp [FVec.get, e2], ?_⟩
    have : valAt ws (j * v.width) v.width = valAt v.words (j * v.width) v.width := by
      apply valAt_congr
      intro k hk
      rw [hbits, if_neg]
      rcases Nat.lt_or_gt_of_ne hne with hlt | hlt
      · have := slot_le v.width hlt; omega
      · have := slot_le v.width hlt; omega
    simp [FVec.get, e3, hy', this, hy]

example := C24_write_read ⟨7, 127#64, 20, [0x123456789ABCDEF0#64, 0x0FEDCBA987654321#64, 5#64]⟩ (by decide) (by decide) (by decide) (by decide) 9 100 (by decide) (by decide)

/-- A value that does not fit changes the neighbour: the hypothesis on the value is needed. -/
theorem C24_oversized : ∃ v v', pushAll [0, 0] ⟨3, 7#64, 0, []⟩ = some v ∧ v.set 0 8 = some v' ∧ v'.get 0 = some 0 ∧
    v'.get 1 = some 1 := ⟨_, _, rfl, rfl, by decide, by decide⟩

example : (FVec.get ⟨7, 127#64, 20, [0x123456789ABCDEF0#64, 0x0FEDCBA987654321#64, 5#64]⟩ 9) = some 66 := by decide

/-! ### C25: histories -/

/-- Constructors of a vector of width `w`. -/
inductive Init
  | new
  | size (n : Nat)
  | sizeVal (n x : Nat)
  | vector (l : List Nat)

inductive Op
  | set (i x : Nat)
  | copy (i j : Nat)
  | pushBack (x : Nat)
  | resize (n : Nat)
  | resizeVal (n x : Nat)
  | assign (n x : Nat)
  | reserve (n : Nat)

/-- Allowed constructor calls; the width of a vector copied from a list is the least sufficient one. -/
def initOk (w : Nat) : Init → Prop
  | .new => True
  | .size _ => True
  | .sizeVal _ x => x < 2 ^ w
  | .vector l => l ≠ [] ∧ (∀ x ∈ l, x < 2 ^ w) ∧ (w = 1 ∨ ∃ x ∈ l, 2 ^ (w - 1) ≤ x)

def specInit : Init → List Nat
  | .new => []
  | .size n => List.replicate n 0
  | .sizeVal n x => List.replicate n x
  | .vector l => l

/-- Allowed calls on a vector of `n` elements: indices inside, values that fit. -/
def opOk (w n : Nat) : Op → Prop
  | .set i x => i < n ∧ x < 2 ^ w
  | .copy i j => i < n ∧ j < n
  | .pushBack x => x < 2 ^ w
  | .resizeVal _ x => x < 2 ^ w
  | .assign _ x => x < 2 ^ w
  | _ => True

def lenStep (n : Nat) : Op → Nat
  | .pushBack _ => n + 1
  | .resize m => m
  | .resizeVal m _ => m
  | .assign m _ => m
  | _ => n

def opsOk (w : Nat) : Nat → List Op → Prop
  | _, [] => True
  | n, o :: os => opOk w n o ∧ opsOk w (lenStep n o) os

/-- The effect on a plain list. The second component says whether the vector was never shrunk (except to
length zero); only then the elements added by `resize(n)` are known to be zero. -/
def specStep (w : Nat) (s : List Nat × Bool) (o : Op) (t : List Nat × Bool) : Prop :=
  match o with
  | .set i x => t = (s.1.set i x, s.2)
  | .copy i j => t = (s.1.set i (s.1.getD j 0), s.2)
  | .pushBack x => t = (s.1 ++ [x], s.2)
  | .resize n => t.1.length = n ∧ t.1.take s.1.length = s.1.take n ∧ (∀ x ∈ t.1, x < 2 ^ w) ∧
      (s.2 = true → t.1 = s.1.take n ++ List.replicate (n - s.1.length) 0) ∧
      t.2 = ((s.2 && decide (s.1.length ≤ n)) || decide (n = 0))
  | .resizeVal n x => t = (s.1.take n ++ List.replicate (n - s.1.length) x,
      (s.2 && decide (s.1.length ≤ n)) || decide (n = 0))
  | .assign n x => t = (List.replicate n x, (s.2 && decide (s.1.length ≤ n)) || decide (n = 0))
  | .reserve _ => t = s

def specRun (w : Nat) : List Nat × Bool → List Op → List Nat × Bool → Prop
  | s, [], t => s = t
  | s, o :: os, t => ∃ m, specStep w s o m ∧ specRun w m os t

def runInit (w : Nat) : Init → Option FVec
  | .new => new w
  | .size n => ofSize w n
  | .sizeVal n x => ofSizeVal w n x
  | .vector l => ofVector l

def runStep (v : FVec) : Op → Option FVec
  | .set i x => v.set i x
  | .copy i j => v.copyElem i j
  | .pushBack x => v.pushBack x
  | .resize n => some (v.resize n)
  | .resizeVal n x => v.resizeVal n x
  | .assign n x => v.assign n x
  | .reserve _ => some v

def runOps (v : FVec) : List Op → Option FVec
  | [] => some v
  | o :: os => do
    let v ← runStep v o
    runOps v os

/-- What a caller sees. -/
def Shows (v : FVec) (w : Nat) (l : List Nat) : Prop :=
  v.width = w ∧ v.size = l.length ∧ (∀ i, i < l.length → v.get i = l[i]?) ∧ (∀ i, v.at i = some (l[i]?)) ∧
  (l ≠ [] → v.get 0 = l.head? ∧ v.get (v.size - 1) = l.getLast?)

theorem wf_shows (v : FVec) (w : Nat) (h : WF v w) : Shows v w (elems v w) := by
  refine ⟨h.width, (elems_length v w).symm, ?_, ?_, ?_⟩
  · intro i hi; exact get_spec v w h i (by rwa [elems_length] at hi)
  · intro i
    unfold FVec.at
    by_cases hi : i < v.size
    · rw [if_neg (by omega), get_spec v w h i hi, elems_getElem? v w i hi]; rfl
    · rw [if_pos (by omega), List.getElem?_eq_none (by rw [elems_length]; omega)]
  · intro hne
    have hpos := List.length_pos_iff.2 hne
    have hl := elems_length v w
    refine ⟨?_, ?_⟩
    · rw [get_spec v w h 0 (by omega), List.head?_eq_getElem?]
    · rw [get_spec v w h _ (by omega), List.getLast?_eq_getElem?, hl]

theorem clean_zero (v : FVec) (w : Nat) : Clean (v.resize 0) w := by
  intro q _
  exact bitAt_ge _ _ (by simp [FVec.resize, need, vresize])

theorem foldl_max_le (l : List Nat) (a b : Nat) : l.foldl max a ≤ b ↔ a ≤ b ∧ ∀ x ∈ l, x ≤ b := by
  induction l generalizing a with
  | nil => simp
  | cons y l ih =>
    rw [List.foldl_cons, ih]
    simp only [List.mem_cons, forall_eq_or_imp]
    rw [Nat.max_le, and_assoc]

theorem foldl_max_mem (l : List Nat) (a : Nat) : l.foldl max a = a ∨ l.foldl max a ∈ l := by
  induction l generalizing a with
  | nil => simp
  | cons y l ih =>
    rw [List.foldl_cons]
    rcases ih (max a y) with h | h
    · rw [h]
      rcases Nat.le_total a y with hay | hay
      · right; rw [Nat.max_eq_right hay]; simp
      · left; exact Nat.max_eq_left hay
    · right; simp [h]

/-- Width of a vector copied from a list. -/
theorem minimal_spec (l : List Nat) (hl : l ≠ []) (h63 : ∀ x ∈ l, x < 2 ^ 63) :
    ∃ w, minimalWordSize l = some w ∧ 1 ≤ w ∧ w ≤ 63 ∧ (∀ x ∈ l, x < 2 ^ w) ∧ (w = 1 ∨ ∃ x ∈ l, 2 ^ (w - 1) ≤ x) := by
  have hmx : l.foldl max 0 < 2 ^ 63 := by
    have := (foldl_max_le l 0 (2 ^ 63 - 1)).2 ⟨by omega, fun x hx => by have := h63 x hx; omega⟩
    omega
  have hle := fun x hx => ((foldl_max_le l 0 (l.foldl max 0)).1 (Nat.le_refl _)).2 x hx
  have hpos : 1 ≤ Calc.bitLen (l.foldl max 0) := by unfold Calc.bitLen; omega
  refine ⟨Calc.bitLen (l.foldl max 0), ?_, hpos, ?_, ?_, ?_⟩
  · simp [minimalWordSize, hl, Calc.sizeFitsInBits_eq _ hmx]
  · exact (Calc.bitLen_le_iff _ 63 (by omega)).2 hmx
  · intro x hx
    exact Nat.lt_of_le_of_lt (hle x hx) ((Calc.bitLen_le_iff _ _ hpos).1 (Nat.le_refl _))
  · by_cases h1 : Calc.bitLen (l.foldl max 0) = 1
    · exact Or.inl h1
    · right
      have hge : 2 ^ (Calc.bitLen (l.foldl max 0) - 1) ≤ l.foldl max 0 := by
        by_contra hcon
        have := (Calc.bitLen_le_iff (l.foldl max 0) (Calc.bitLen (l.foldl max 0) - 1) (by omega)).2 (by omega)
        omega
      rcases foldl_max_mem l 0 with h0 | h0
      · rw [h0] at hge
        have : 0 < 2 ^ (Calc.bitLen 0 - 1) := Nat.pow_pos (by decide)
        omega
      · exact ⟨_, h0, hge⟩

theorem init_spec (w : Nat) (h1 : 1 ≤ w) (h63 : w ≤ 63) (i : Init) (hi : initOk w i) :
    ∃ v, runInit w i = some v ∧ WF v w ∧ elems v w = specInit i ∧ Clean v w := by
  obtain ⟨v, e, hv, hl, hc⟩ := new_spec w h1 h63
  have hs : v.size = 0 := by rw [← elems_length v w, hl]; rfl
  cases i with
  | new => exact ⟨v, e, hv, hl, hc⟩
  | size n =>
    obtain ⟨a, _, c⟩ := resize_spec v w hv n
    obtain ⟨c1, c2⟩ := c hc (Or.inl (by omega))
    refine ⟨v.resize n, by simp [runInit, ofSize, e], a, ?_, c1⟩
    rw [c2, hl, hs]; simp [specInit]
  | sizeVal n x =>
    obtain ⟨a, _, c⟩ := resize_spec v w hv n
    obtain ⟨c1, c2⟩ := c hc (Or.inl (by omega))
    obtain ⟨v2, e2, w2, s2, l2, cl2⟩ := setRange_spec w x hi n 0 (v.resize n) a (by simp [FVec.resize])
    refine ⟨v2, by simp [runInit, ofSizeVal, e, FVec.assign, e2], w2, ?_, cl2 c1⟩
    rw [l2, List.drop_of_length_le (by rw [elems_length]; simp [FVec.resize])]
    simp [specInit]
  | vector l =>
    obtain ⟨hne, hlt, hmin⟩ := hi
    obtain ⟨w', e', p1, p2, p3, p4⟩ := minimal_spec l hne (fun x hx =>
      Nat.lt_of_lt_of_le (hlt x hx) (Nat.pow_le_pow_right (by decide) h63))
    have hww : w' = w := by
      rcases Nat.lt_trichotomy w' w with h | h | h
      · rcases hmin with hm | ⟨x, hx, hm⟩
        · omega
        · have := p3 x hx
          have := Nat.pow_le_pow_right (show 0 < 2 by decide) (show w' ≤ w - 1 by omega)
          omega
      · exact h
      · rcases p4 with hm | ⟨x, hx, hm⟩
        · omega
        · have := hlt x hx
          have := Nat.pow_le_pow_right (show 0 < 2 by decide) (show w ≤ w' - 1 by omega)
          omega
    subst hww
    obtain ⟨v2, e2, w2, l2, c2⟩ := pushAll_spec w' l v hv hlt
    refine ⟨v2, by simp [runInit, ofVector, e', e, e2], w2, ?_, c2 hc⟩
    rw [l2, hl]; simp [specInit]

theorem step_spec (w : Nat) (v : FVec) (hv : WF v w) (c : Bool) (hc : c = true → Clean v w) (o : Op)
    (ho : opOk w v.size o) :
    ∃ v' c', runStep v o = some v' ∧ WF v' w ∧ (c' = true → Clean v' w) ∧ v'.size = lenStep v.size o ∧
      specStep w (elems v w, c) o (elems v' w, c') := by
  have hlen := elems_length v w
  cases o with
  | set i x =>
    obtain ⟨v2, e, w2, s2, l2, c2⟩ := set_spec v w hv i x ho.1 ho.2
    exact ⟨v2, c, e, w2, fun h => c2 (hc h), s2, by simp [specStep, l2]⟩
  | copy i j =>
    have hlt : (elems v w).getD j 0 < 2 ^ w := by
      rw [List.getD_eq_getElem?_getD, elems_getElem? v w j ho.2]
      exact valAt_lt _ _ _
    obtain ⟨v2, e, w2, s2, l2, c2⟩ := set_spec v w hv i _ ho.1 hlt
    refine ⟨v2, c, ?_, w2, fun h => c2 (hc h), s2, by simp [specStep, l2]⟩
    simp only [runStep, FVec.copyElem, get_spec v w hv j ho.2]
    rw [List.getD_eq_getElem?_getD] at e
    rw [elems_getElem? v w j ho.2] at e ⊢
    exact e
  | pushBack x =>
    obtain ⟨v2, e, w2, l2, c2⟩ := pushBack_spec v w hv x ho
    refine ⟨v2, c, e, w2, fun h => c2 (hc h), ?_, by simp [specStep, l2]⟩
    rw [← elems_length v2 w, l2, List.length_append, hlen]; rfl
  | resize n =>
    obtain ⟨a, b, d⟩ := resize_spec v w hv n
    have hclean : ((c && decide ((elems v w).length ≤ n)) || decide (n = 0)) = true → Clean (v.resize n) w := by
      intro h
      by_cases h0 : n = 0
      · subst h0; exact clean_zero v w
      · simp only [h0, decide_false, Bool.or_false, Bool.and_eq_true, decide_eq_true_eq] at h
        exact (d (hc h.1) (Or.inl (by omega))).1
    refine ⟨v.resize n, _, rfl, a, hclean, rfl, by rw [elems_length]; rfl, by rw [hlen]; exact b, elems_lt _ _, ?_, rfl⟩
    intro hc'
    by_cases hn : v.size ≤ n
    · rw [hlen]; exact (d (hc hc') (Or.inl hn)).2
    · have h1 : n - (elems v w).length = 0 := by omega
      rw [h1, List.replicate_zero, List.append_nil, ← b, List.take_of_length_le]
      rw [elems_length]; show n ≤ v.size; omega
  | resizeVal n x =>
    obtain ⟨a, b, d⟩ := resize_spec v w hv n
    have hsz : (v.resize n).size = n := rfl
    by_cases hn : v.size ≤ n
    · obtain ⟨v2, e2, w2, s2, l2, cl2⟩ := setRange_spec w x ho (n - v.size) v.size (v.resize n) a (by rw [hsz]; omega)
      refine ⟨v2, ((c && decide ((elems v w).length ≤ n)) || decide (n = 0)), e2, w2, ?_, s2, ?_⟩
      rotate_left
      · simp only [specStep]
        rw [Prod.mk.injEq]
        refine ⟨?_, rfl⟩
        rw [l2, b, hlen, List.drop_of_length_le (by rw [elems_length, hsz]; omega)]
        simp
      · intro h
        by_cases h0 : n = 0
        · subst h0; exact cl2 (clean_zero v w)
        · simp only [h0, decide_false, Bool.or_false, Bool.and_eq_true, decide_eq_true_eq] at h
          exact cl2 (d (hc h.1) (Or.inl (by omega))).1
    · have hz : n - v.size = 0 := by omega
      refine ⟨v.resize n, ((c && decide ((elems v w).length ≤ n)) || decide (n = 0)), by simp [runStep, FVec.resizeVal, hz, FVec.setRange], a, ?_, rfl, ?_⟩
      rotate_left
      · simp only [specStep]
        rw [Prod.mk.injEq]
        refine ⟨?_, rfl⟩
        rw [hlen, hz, List.replicate_zero, List.append_nil, ← b, List.take_of_length_le]
        rw [elems_length]; show n ≤ v.size; omega
      · intro h
        by_cases h0 : n = 0
        · subst h0; exact clean_zero v w
        · simp only [h0, decide_false, Bool.or_false, Bool.and_eq_true, decide_eq_true_eq] at h
          omega
  | assign n x =>
    obtain ⟨a, b, d⟩ := resize_spec v w hv n
    have hsz : (v.resize n).size = n := rfl
    obtain ⟨v2, e2, w2, s2, l2, cl2⟩ := setRange_spec w x ho n 0 (v.resize n) a (by rw [hsz]; omega)
    refine ⟨v2, ((c && decide ((elems v w).length ≤ n)) || decide (n = 0)), e2, w2, ?_, s2, ?_⟩
    rotate_left
    · simp only [specStep]
      rw [Prod.mk.injEq]
      refine ⟨?_, rfl⟩
      rw [l2, List.drop_of_length_le (by rw [elems_length, hsz]; omega)]
      simp
    · intro h
      by_cases h0 : n = 0
      · subst h0; exact cl2 (clean_zero v w)
      · simp only [h0, decide_false, Bool.or_false, Bool.and_eq_true, decide_eq_true_eq] at h
        exact cl2 (d (hc h.1) (Or.inl (by omega))).1
  | reserve n => exact ⟨v, c, rfl, hv, hc, rfl, rfl⟩

theorem run_spec (w : Nat) : ∀ (os : List Op) (v : FVec) (c : Bool), WF v w → (c = true → Clean v w) → opsOk w v.size os →
    ∃ v' c', runOps v os = some v' ∧ WF v' w ∧ (c' = true → Clean v' w) ∧ specRun w (elems v w, c) os (elems v' w, c')
  | [], v, c, h, hc, _ => ⟨v, c, rfl, h, hc, rfl⟩
  | o :: os, v, c, h, hc, ho => by
    obtain ⟨v1, c1, e1, w1, k1, s1, r1⟩ := step_spec w v h c hc o ho.1
    obtain ⟨v2, c2, e2, w2, k2, r2⟩ := run_spec w os v1 c1 w1 k1 (by rw [s1]; exact ho.2)
    refine ⟨v2, c2, ?_, w2, k2, _, r1, r2⟩
    simp only [runOps, e1, Option.bind_eq_bind, Option.bind_some]; exact e2

/-- Every history of allowed calls runs without fault and agrees with the same history on a plain list. -/
theorem C25_histories (w : Nat) (h1 : 1 ≤ w) (h63 : w ≤ 63) (i : Init) (hi : initOk w i) (os : List Op)
    (ho : opsOk w (specInit i).length os) :
    ∃ v0 v l c, runInit w i = some v0 ∧ runOps v0 os = some v ∧ specRun w (specInit i, true) os (l, c) ∧ Shows v w l := by
  obtain ⟨v0, e0, w0, l0, c0⟩ := init_spec w h1 h63 i hi
  have hs : v0.size = (specInit i).length := by rw [← l0, elems_length]
  obtain ⟨v, c, e, hv, _, r⟩ := run_spec w os v0 true w0 (fun _ => c0) (by rw [hs]; exact ho)
  rw [l0] at r
  exact ⟨v0, v, _, c, e0, e, r, wf_shows v w hv⟩

example := C25_histories 7 (by decide) (by decide) (.vector [100, 3]) ⟨by decide, by decide, Or.inr ⟨100, by decide, by decide⟩⟩
  [.pushBack 127, .set 0 5, .resizeVal 1 0, .assign 30 9, .copy 29 3] (by simp [opsOk, opOk, lenStep, specInit])

/-- Growth by `resize(n)` after shrinking shows stale elements: the flag in the specification is needed. -/
theorem C25_stale : ∃ v0 v, runInit 8 .new = some v0 ∧
    runOps v0 [.pushBack 1, .pushBack 2, .resize 1, .resize 2] = some v ∧ v.get 1 = some 2 :=
  ⟨_, _, rfl, rfl, by decide⟩

/-- The default constructor `FitVector()` has width 64: undefined behaviour. -/
theorem C25_default_ub : new 64 = none := rfl

example : initOk 7 (.vector [100, 3]) ∧ opsOk 7 2 [.pushBack 127, .set 0 5, .resizeVal 1 0, .assign 30 9, .copy 29 3] := by
  refine ⟨⟨by decide, by decide, Or.inr ⟨100, by decide, by decide⟩⟩, ?_⟩
  simp [opsOk, opOk, lenStep]

/-! ### C26 -/

/-- A FitVector copied from a list keeps every value and has the least width that can hold them. -/
theorem C26_ofVector (l : List Nat) (hl : l ≠ []) (h : ∀ x ∈ l, x < 2 ^ 63) :
    ∃ v, ofVector l = some v ∧ v.size = l.length ∧ (∀ i, i < l.length → v.get i = l[i]?) ∧
      1 ≤ v.width ∧ (∀ x ∈ l, x < 2 ^ v.width) ∧ ∀ w', 1 ≤ w' → (∀ x ∈ l, x < 2 ^ w') → v.width ≤ w' := by
  obtain ⟨w, e, p1, p2, p3, p4⟩ := minimal_spec l hl h
  obtain ⟨v, e2, hv, hel, _⟩ := init_spec w p1 p2 (.vector l) ⟨hl, p3, p4⟩
  have hsh := wf_shows v w hv
  rw [hel] at hsh
  refine ⟨v, e2, hsh.2.1, hsh.2.2.1, by rw [hv.width]; exact p1, by rw [hv.width]; exact p3, ?_⟩
  intro w' h1 h2
  rw [hv.width]
  rcases p4 with p4 | ⟨x, hx, p4⟩
  · omega
  · have := h2 x hx
    by_contra hcon
    have := Nat.pow_le_pow_right (show 0 < 2 by decide) (show w' ≤ w - 1 by omega)
    omega

example := C26_ofVector [3, 700, 0] (by decide) (by decide)

/-- An empty list gives an empty vector (of width zero). -/
theorem C26_empty : ∃ v, ofVector [] = some v ∧ v.size = 0 ∧ v.width = 0 := ⟨_, rfl, rfl, rfl⟩

/-- A value of 64 bits makes the width computation undefined. -/
theorem C26_too_large (l : List Nat) (x : Nat) (hx : x ∈ l) (h : 2 ^ 63 ≤ x) : ofVector l = none := by
  have hne : l ≠ [] := by rintro rfl; simp at hx
  have hmx : 2 ^ 63 ≤ l.foldl max 0 :=
    Nat.le_trans h (((foldl_max_le l 0 (l.foldl max 0)).1 (Nat.le_refl _)).2 x hx)
  have : Calc.sizeFitsInBits (l.foldl max 0) = none := by
    apply Calc.sizeFitsLoop_none _ 1 (by decide) _ 64 0 (by decide)
    intro k hk
    have := Nat.pow_le_pow_right (show 0 < 2 by decide) (show k * 1 ≤ 63 by omega)
    omega
  simp [ofVector, minimalWordSize, hne, this]

example : (ofVector [5, 1000, 0]).map (fun v => (v.width, v.get 1)) = some (10, some 1000) := by decide +kernel

/-! ### C27 -/

theorem read_write (v : FVec) (w : Nat) (hw : w ≤ 63) (hv : v.width = w) (hm : widthMask w = some v.mask) (hsz : v.size < 2 ^ 64)
    (hlen : v.words.length < 2 ^ 64) (s : Stream) : read (v.write ++ s) = some (v, s) := by
  unfold read FVec.write
  rw [List.append_assoc, List.append_assoc, readVal_writeVal 8 _ (by rw [hv]; exact Nat.lt_of_le_of_lt hw (by decide))]
  simp only [Option.bind_eq_bind, Option.bind_some, new, hv, hm, Option.pure_def]
  rw [readVal_writeVal 8 _ hsz]
  simp only [Option.bind_some]
  rw [readVec_writeVec 8]
  · have : (BitVec.ofNat 64 ∘ BitVec.toNat : W64 → W64) = id := by funext x; simp
    simp only [Option.bind_some, List.map_map, this, List.map_id]
    subst hv; rfl
  · intro x hx
    obtain ⟨y, _, rfl⟩ := List.mem_map.1 hx
    exact y.isLt
  · simpa using hlen

/-- A vector reached by any history is read back identically from
what `Write` wrote, consuming exactly those bytes; `size_in_bytes` is their number. -/
theorem C27_roundtrip (w : Nat) (h1 : 1 ≤ w) (h63 : w ≤ 63) (i : Init) (hi : initOk w i) (os : List Op)
    (ho : opsOk w (specInit i).length os) (v0 v : FVec) (e0 : runInit w i = some v0) (e : runOps v0 os = some v)
    (hsz : v.size * w < 2 ^ 64) (s : Stream) :
    read (v.write ++ s) = some (v, s) ∧ v.write.length = v.sizeInBytes := by
  obtain ⟨v0', e0', w0, l0, c0⟩ := init_spec w h1 h63 i hi
  rw [e0] at e0'
  obtain rfl := Option.some.inj e0'
  have hs : v0.size = (specInit i).length := by rw [← l0, elems_length]
  obtain ⟨v', c, e', hv, _, r⟩ := run_spec w os v0 true w0 (fun _ => c0) (by rw [hs]; exact ho)
  rw [e] at e'
  obtain rfl := Option.some.inj e'
  have hm : widthMask w = some v.mask := by
    obtain ⟨m, hm, hb⟩ := C09_widthMask w (by omega)
    rw [hm]; congr 1
    apply BitVec.eq_of_getLsbD_eq
    intro j _
    rw [hb, hv.mask]
  refine ⟨read_write v w h63 hv.width hm ?_ ?_ s, ?_⟩
  · have := Nat.mul_le_mul_left v.size h1
    omega
  · rw [hv.len]; unfold need; split <;> omega
  · simp [FVec.write, FVec.sizeInBytes, writeVal_length, C47_size_vec]; omega

example := C27_roundtrip 13 (by decide) (by decide) (.sizeVal 30 5000) (by simp [initOk]) [] trivial _ _ rfl rfl (by decide) [7#8]

/-- The same for the vector of width zero copied from an empty list. -/
theorem C27_empty (s : Stream) : ∃ v, ofVector [] = some v ∧ read (v.write ++ s) = some (v, s) :=
  ⟨_, rfl, read_write _ 0 (by decide) rfl rfl (by decide) (by decide) s⟩

example : ∃ v, runInit 13 (.sizeVal 30 5000) = some v ∧ (Fit.read (v.write ++ [7#8])).isSome :=
  ⟨_, rfl, by decide +kernel⟩

end Verif.Fit

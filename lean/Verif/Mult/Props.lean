/-
Property theorems C28-C29 (MultipleVector).
-/
import Verif.Mult.Lemmas

namespace Verif.Mult
open Verif.Serial

/-! ### C28: histories on a list of records -/

inductive Op
  | set (i f x : Nat)
  | setR (i f t x : Nat)
  | pushBack (xs : List Nat)
  | emplaceBack
  | resize (n : Nat)
  | resizeVals (n : Nat) (xs : List Nat)

/-- Allowed calls on `n` records: record and field exist, no more values than fields. -/
def opOk (sizes : List Nat) (n : Nat) : Op → Prop
  | .set i f _ => i < n ∧ f < sizes.length
  | .setR i f _ _ => i < n ∧ f < sizes.length
  | .pushBack xs => xs.length ≤ sizes.length
  | .resizeVals _ xs => xs.length ≤ sizes.length
  | _ => True

/-- A record made of the given values reduced to the field widths; missing values are zero. -/
def newRec (sizes xs : List Nat) : List Nat := sizes.mapIdx fun f s => xs.getD f 0 % 256 ^ s

/-- The effect on the list of records. `setR` replaces the low `min size t` bytes of the field. -/
def specStep (sizes : List Nat) (l : List (List Nat)) : Op → List (List Nat)
  | .set i f x => l.set i ((l.getD i []).set f (x % 256 ^ (sizes.getD f 0)))
  | .setR i f t x =>
    let m := 256 ^ min (sizes.getD f 0) t
    l.set i ((l.getD i []).set f ((l.getD i []).getD f 0 / m * m + x % m))
  | .pushBack xs => l ++ [newRec sizes xs]
  | .emplaceBack => l ++ [newRec sizes []]
  | .resize n => l.take n ++ List.replicate (n - l.length) (newRec sizes [])
  | .resizeVals n xs => l.take n ++ List.replicate (n - l.length) (newRec sizes xs)

def opsOk (sizes : List Nat) : List (List Nat) → List Op → Prop
  | _, [] => True
  | l, o :: os => opOk sizes l.length o ∧ opsOk sizes (specStep sizes l o) os

def runStep (v : MVec) : Op → Option MVec
  | .set i f x => v.set i f x
  | .setR i f t x => v.setR i f t x
  | .pushBack xs => v.pushBack xs
  | .emplaceBack => v.emplaceBack
  | .resize n => v.resize n
  | .resizeVals n xs => v.resizeVals n xs

def runOps (v : MVec) : List Op → Option MVec
  | [] => some v
  | o :: os => do
    let v ← runStep v o
    runOps v os

/-- What a caller sees: the number of records, every field, and every field read through a narrower type
of `t` bytes. -/
def Shows (v : MVec) (sizes : List Nat) (l : List (List Nat)) : Prop :=
  v.size = some l.length ∧
  ∀ i (hi : i < l.length), l[i].length = sizes.length ∧ ∀ f (hf : f < l[i].length),
    v.get i f = some l[i][f] ∧ ∀ t, v.getR i f t = some (l[i][f] % 256 ^ t)

/-- The records shown by the model state. -/
structure Rep (v : MVec) (sizes : List Nat) (l : List (List Nat)) : Prop where
  wf : WF v sizes l.length
  recl : ∀ i, i < l.length → (l.getD i []).length = sizes.length
  cell : ∀ i f, i < l.length → f < sizes.length → (l.getD i []).getD f 0 = fld v sizes i f

theorem rep_shows {v : MVec} {sizes : List Nat} {l : List (List Nat)} (hl : Layout sizes) (h : Rep v sizes l) :
    Shows v sizes l := by
  refine ⟨h.wf.sz hl, ?_⟩
  intro i hi
  have hgd : l.getD i [] = l[i] := by simp [List.getD_eq_getElem?_getD, hi]
  have hlen := h.recl i hi
  rw [hgd] at hlen
  refine ⟨hlen, ?_⟩
  intro f hf
  have hc := h.cell i f hi (by omega)
  have hgf : l[i].getD f 0 = l[i][f] := by simp [List.getD_eq_getElem?_getD, hf]
  rw [hgd, hgf] at hc
  refine ⟨by rw [get_spec h.wf hl i f hi (by omega), hc], ?_⟩
  intro t
  rw [getR_spec h.wf hl i f t hi (by omega), hc]

theorem newRec_getD (sizes xs : List Nat) (f : Nat) (hf : f < sizes.length) :
    (newRec sizes xs).getD f 0 = xs.getD f 0 % 256 ^ (sizes.getD f 0) := by
  simp [newRec, List.getD_eq_getElem?_getD, hf]

theorem newRec_nil (sizes : List Nat) (f : Nat) (hf : f < sizes.length) : (newRec sizes []).getD f 0 = 0 := by
  rw [newRec_getD _ _ _ hf]; simp

theorem setR_full {v : MVec} {sizes : List Nat} {n : Nat} (h : WF v sizes n) (hl : Layout sizes) (i f x : Nat) (hi : i < n)
    (hf : f < sizes.length) : ∃ v', v.set i f x = some v' ∧ WF v' sizes n ∧
      fld v' sizes i f = x % 256 ^ (sizes.getD f 0) ∧
      ∀ j g, j < n → g < sizes.length → (j ≠ i ∨ g ≠ f) → fld v' sizes j g = fld v sizes j g := by
  have hs := hl.2 sizes[f] (List.getElem_mem hf)
  have hgd : sizes.getD f 0 = sizes[f] := by simp [List.getD_eq_getElem?_getD, hf]
  obtain ⟨v', e, w, a, b⟩ := setR_spec h hl i f 8 x hi hf
  refine ⟨v', by rw [set_eq_setR v i f x (h.small hl f)]; exact e, w, ?_, b⟩
  rw [a, Nat.min_eq_left hs.2, hgd]
  have : fld v sizes i f < 256 ^ sizes[f] := by unfold fld; rw [hgd]; exact leB_lt _ _ _
  rw [Nat.div_eq_of_lt this]; omega

theorem setFields_spec {sizes : List Nat} (hl : Layout sizes) (i n : Nat) (hi : i < n) : ∀ (xs : List Nat) (f : Nat) (v : MVec),
    WF v sizes n → f + xs.length ≤ sizes.length → ∃ v', v.setFields i f xs = some v' ∧ WF v' sizes n ∧
      (∀ g, g < sizes.length → fld v' sizes i g = if f ≤ g ∧ g < f + xs.length then xs.getD (g - f) 0 % 256 ^ (sizes.getD g 0)
        else fld v sizes i g) ∧ ∀ j g, j < n → j ≠ i → g < sizes.length → fld v' sizes j g = fld v sizes j g
  | [], f, v, h, _ => ⟨v, rfl, h, fun g _ => by rw [if_neg (by simp only [List.length_nil]; omega)], fun _ _ _ _ _ => rfl⟩
  | x :: xs, f, v, h, hle => by
    simp only [List.length_cons] at hle
    obtain ⟨v1, e1, w1, a1, b1⟩ := setR_full h hl i f x hi (by omega)
    obtain ⟨v2, e2, w2, a2, b2⟩ := setFields_spec hl i n hi xs (f + 1) v1 w1 (by omega)
    refine ⟨v2, ?_, w2, ?_, ?_⟩
    · simp only [MVec.setFields, e1, Option.bind_eq_bind, Option.bind_some]; exact e2
    · intro g hg
      rw [a2 g hg]
      simp only [List.length_cons]
      by_cases h1 : f + 1 ≤ g ∧ g < f + 1 + xs.length
      · rw [if_pos h1, if_pos (by omega), show g - f = (g - (f + 1)) + 1 by omega, List.getD_cons_succ]
      · rw [if_neg h1]
        by_cases h2 : g = f
        · subst h2
          rw [a1, if_pos (by omega), Nat.sub_self, List.getD_cons_zero]
        · rw [if_neg (by omega), b1 i g hi hg (Or.inr h2)]
    · intro j g hj hne hg
      rw [b2 j g hj hne hg, b1 j g hj hg (Or.inl hne)]

theorem setRecords_spec {sizes : List Nat} (hl : Layout sizes) (n : Nat) (xs : List Nat) (hx : xs.length ≤ sizes.length) :
    ∀ (m i : Nat) (v : MVec), WF v sizes n → i + m ≤ n → (∀ j f, i ≤ j → j < n → f < sizes.length → fld v sizes j f = 0) →
      ∃ v', v.setRecords xs m i = some v' ∧ WF v' sizes n ∧ ∀ j f, j < n → f < sizes.length →
        fld v' sizes j f = if i ≤ j ∧ j < i + m then xs.getD f 0 % 256 ^ (sizes.getD f 0) else fld v sizes j f
  | 0, i, v, h, _, _ => ⟨v, rfl, h, fun j f _ _ => by rw [if_neg (by omega)]⟩
  | m + 1, i, v, h, him, hz => by
    obtain ⟨v1, e1, w1, a1, b1⟩ := setFields_spec hl i n (by omega) xs 0 v h (by omega)
    obtain ⟨v2, e2, w2, a2⟩ := setRecords_spec hl n xs hx m (i + 1) v1 w1 (by omega) (by
      intro j f hj hjn hf
      rw [b1 j f hjn (by omega) hf]
      exact hz j f (by omega) hjn hf)
    refine ⟨v2, ?_, w2, ?_⟩
    · simp only [MVec.setRecords, e1, Option.bind_eq_bind, Option.bind_some]; exact e2
    · intro j f hj hf
      rw [a2 j f hj hf]
      by_cases h1 : i + 1 ≤ j ∧ j < i + 1 + m
      · rw [if_pos h1, if_pos (by omega)]
      · rw [if_neg h1]
        by_cases h2 : j = i
        · subst h2
          rw [a1 f hf, if_pos (show j ≤ j ∧ j < j + (m + 1) by omega)]
          by_cases h3 : f < xs.length
          · rw [if_pos (by omega), Nat.sub_zero]
          · rw [if_neg (by omega), hz j f (Nat.le_refl _) hj hf, List.getD_eq_getElem?_getD,
              List.getElem?_eq_none (by omega)]; simp
        · rw [if_neg (by omega), b1 j f hj h2 hf]

/-- Cells of the list of records after `resize`. -/
theorem cell_resize (l : List (List Nat)) (n : Nat) (r : List Nat) (i : Nat) (hi : i < n) :
    (l.take n ++ List.replicate (n - l.length) r).getD i [] = if i < l.length then l.getD i [] else r := by
  rw [List.getD_eq_getElem?_getD, List.getElem?_append, List.length_take]
  by_cases h : i < l.length
  · rw [if_pos (by omega), if_pos h, List.getElem?_take, if_pos hi, ← List.getD_eq_getElem?_getD]
  · rw [if_neg (by omega), if_neg h, List.getElem?_replicate, if_pos (by omega)]; rfl

theorem len_resize (l : List (List Nat)) (n : Nat) (r : List Nat) :
    (l.take n ++ List.replicate (n - l.length) r).length = n := by simp; omega

theorem newRec_length (sizes xs : List Nat) : (newRec sizes xs).length = sizes.length := by simp [newRec]

theorem append_eq_resize (l : List (List Nat)) (r : List Nat) :
    l ++ [r] = l.take (l.length + 1) ++ List.replicate (l.length + 1 - l.length) r := by
  rw [List.take_of_length_le (by omega), show l.length + 1 - l.length = 1 by omega]; rfl

/-- Growing or shrinking to `n` records filled from `xs`. -/
theorem resizeVals_rep {v : MVec} {sizes : List Nat} {l : List (List Nat)} (hl : Layout sizes) (h : Rep v sizes l) (n : Nat)
    (xs : List Nat) (hx : xs.length ≤ sizes.length) :
    ∃ v1 v', v.resize n = some v1 ∧ v1.setRecords xs (n - l.length) l.length = some v' ∧
      Rep v' sizes (l.take n ++ List.replicate (n - l.length) (newRec sizes xs)) := by
  obtain ⟨v1, e1, w1, a1⟩ := resize_spec h.wf hl n
  have hz : ∀ j f, l.length ≤ j → j < n → f < sizes.length → fld v1 sizes j f = 0 := by
    intro j f h1 h2 h3
    rw [a1 j f h2 h3, if_neg (by omega)]
  by_cases hn : l.length ≤ n
  · obtain ⟨v2, e2, w2, a2⟩ := setRecords_spec hl n xs hx (n - l.length) l.length v1 w1 (by omega) hz
    refine ⟨v1, v2, e1, e2, by rw [len_resize]; exact w2, ?_, ?_⟩
    · intro i hi
      rw [len_resize] at hi
      rw [cell_resize _ _ _ _ hi]
      split
      · exact h.recl i ‹_›
      · exact newRec_length _ _
    · intro i f hi hf
      rw [len_resize] at hi
      rw [cell_resize _ _ _ _ hi, a2 i f hi hf]
      by_cases hil : i < l.length
      · rw [if_pos hil, if_neg (by omega), a1 i f hi hf, if_pos hil, h.cell i f hil hf]
      · rw [if_neg hil, if_pos (by omega), newRec_getD _ _ _ hf]
  · have hz0 : n - l.length = 0 := by omega
    refine ⟨v1, v1, e1, by rw [hz0]; rfl, by rw [len_resize]; exact w1, ?_, ?_⟩
    · intro i hi
      rw [len_resize] at hi
      rw [cell_resize _ _ _ _ hi, if_pos (by omega)]
      exact h.recl i (by omega)
    · intro i f hi hf
      rw [len_resize] at hi
      rw [cell_resize _ _ _ _ hi, if_pos (by omega), a1 i f hi hf, if_pos (by omega), h.cell i f (by omega) hf]

theorem resize_rep {v : MVec} {sizes : List Nat} {l : List (List Nat)} (hl : Layout sizes) (h : Rep v sizes l) (n : Nat) :
    ∃ v', v.resize n = some v' ∧ Rep v' sizes (l.take n ++ List.replicate (n - l.length) (newRec sizes [])) := by
  obtain ⟨v1, e1, w1, a1⟩ := resize_spec h.wf hl n
  refine ⟨v1, e1, by rw [len_resize]; exact w1, ?_, ?_⟩
  · intro i hi
    rw [len_resize] at hi
    rw [cell_resize _ _ _ _ hi]
    split
    · exact h.recl i ‹_›
    · exact newRec_length _ _
  · intro i f hi hf
    rw [len_resize] at hi
    rw [cell_resize _ _ _ _ hi, a1 i f hi hf]
    by_cases hil : i < l.length
    · rw [if_pos hil, if_pos hil, h.cell i f hil hf]
    · rw [if_neg hil, if_neg hil, newRec_nil _ _ hf]

theorem set_rep {v v' : MVec} {sizes : List Nat} {l : List (List Nat)} (h : Rep v sizes l) (i f y : Nat) (hi : i < l.length)
    (hf : f < sizes.length) (w : WF v' sizes l.length) (a : fld v' sizes i f = y)
    (b : ∀ j g, j < l.length → g < sizes.length → (j ≠ i ∨ g ≠ f) → fld v' sizes j g = fld v sizes j g) :
    Rep v' sizes (l.set i ((l.getD i []).set f y)) := by
  have hgs : ∀ j, j < l.length → (l.set i ((l.getD i []).set f y)).getD j [] =
      if i = j then (l.getD i []).set f y else l.getD j [] := by
    intro j hj
    rw [List.getD_eq_getElem?_getD, List.getElem?_set]
    by_cases hij : i = j
    · rw [if_pos hij, if_pos hi, if_pos hij]; rfl
    · rw [if_neg hij, if_neg hij, ← List.getD_eq_getElem?_getD]
  refine ⟨by rw [List.length_set]; exact w, ?_, ?_⟩
  · intro j hj
    rw [List.length_set] at hj
    rw [hgs j hj]
    split
    · rw [List.length_set]; exact h.recl i hi
    · exact h.recl j hj
  · intro j g hj hg
    rw [List.length_set] at hj
    rw [hgs j hj]
    by_cases hij : i = j
    · subst hij
      rw [if_pos rfl, List.getD_eq_getElem?_getD, List.getElem?_set, h.recl i hi]
      by_cases hfg : f = g
      · subst hfg
        rw [if_pos rfl, if_pos hf, a]; rfl
      · rw [if_neg hfg, ← List.getD_eq_getElem?_getD, h.cell i g hi hg, b i g hi hg (Or.inr (fun e => hfg e.symm))]
    · rw [if_neg hij, h.cell j g hj hg, b j g hj hg (Or.inl (fun e => hij e.symm))]

theorem step_rep {v : MVec} {sizes : List Nat} {l : List (List Nat)} (hl : Layout sizes) (h : Rep v sizes l) (o : Op)
    (ho : opOk sizes l.length o) : ∃ v', runStep v o = some v' ∧ Rep v' sizes (specStep sizes l o) := by
  cases o with
  | set i f x =>
    obtain ⟨v', e, w, a, b⟩ := setR_full h.wf hl i f x ho.1 ho.2
    exact ⟨v', e, set_rep h i f _ ho.1 ho.2 w a b⟩
  | setR i f t x =>
    obtain ⟨v', e, w, a, b⟩ := setR_spec h.wf hl i f t x ho.1 ho.2
    refine ⟨v', e, set_rep h i f _ ho.1 ho.2 w ?_ b⟩
    rw [a, h.cell i f ho.1 ho.2]
    have hf := ho.2
    simp [List.getD_eq_getElem?_getD, hf]
  | pushBack xs =>
    obtain ⟨v1, v', e1, e2, r⟩ := resizeVals_rep hl h (l.length + 1) xs ho
    refine ⟨v', ?_, by rw [specStep, append_eq_resize]; exact r⟩
    obtain ⟨v1', e1', w1, _⟩ := resize_spec h.wf hl (l.length + 1)
    rw [e1] at e1'
    obtain rfl := Option.some.inj e1'
    simp only [runStep, MVec.pushBack, h.wf.sz hl, Option.bind_eq_bind, Option.bind_some, e1, w1.sz hl]
    rw [show l.length + 1 - l.length = 1 by omega] at e2
    simp only [MVec.setRecords, Option.bind_eq_bind] at e2
    rw [show l.length + 1 - 1 = l.length by omega]
    cases hsf : v1.setFields l.length 0 xs with
    | none => rw [hsf] at e2; cases e2
    | some u => rw [hsf] at e2; exact e2
  | emplaceBack =>
    obtain ⟨v', e, r⟩ := resize_rep hl h (l.length + 1)
    refine ⟨v', ?_, by rw [specStep, append_eq_resize]; exact r⟩
    simp only [runStep, MVec.emplaceBack, h.wf.sz hl, Option.bind_eq_bind, Option.bind_some, e]
  | resize n => exact resize_rep hl h n
  | resizeVals n xs =>
    obtain ⟨v1, v', e1, e2, r⟩ := resizeVals_rep hl h n xs ho
    refine ⟨v', ?_, r⟩
    simp only [runStep, MVec.resizeVals, h.wf.sz hl, Option.bind_eq_bind, Option.bind_some]
    by_cases h1 : n < l.length
    · rw [if_pos h1, e1]
      rw [show n - l.length = 0 by omega] at e2
      exact e2
    · rw [if_neg h1]
      by_cases h2 : n > l.length
      · rw [if_pos h2, e1]
        exact e2
      · rw [if_neg h2]
        obtain rfl : n = l.length := by omega
        rw [Nat.sub_self] at e2
        have hv : vresize v.bytes (l.length * sizes.sum) 0#8 = v.bytes := by
          unfold vresize
          rw [h.wf.len, Nat.sub_self, List.take_of_length_le (Nat.le_of_eq h.wf.len)]; simp
        unfold MVec.resize at e1
        rw [h.wf.block hl] at e1
        simp only [Option.bind_eq_bind, Option.bind_some, hv] at e1
        have : v1 = v := (Option.some.inj e1).symm
        rw [this] at e2
        exact e2

theorem run_rep {sizes : List Nat} (hl : Layout sizes) : ∀ (os : List Op) (v : MVec) (l : List (List Nat)), Rep v sizes l →
    opsOk sizes l os → ∃ v', runOps v os = some v' ∧ Rep v' sizes (os.foldl (specStep sizes) l)
  | [], v, l, h, _ => ⟨v, rfl, h⟩
  | o :: os, v, l, h, ho => by
    obtain ⟨v1, e1, r1⟩ := step_rep hl h o ho.1
    obtain ⟨v2, e2, r2⟩ := run_rep hl os v1 _ r1 ho.2
    refine ⟨v2, ?_, r2⟩
    simp only [runOps, e1, Option.bind_eq_bind, Option.bind_some]; exact e2

theorem new_rep (sizes : List Nat) : Rep (new sizes) sizes [] :=
  ⟨⟨rfl, by simp [new]⟩, by simp, by simp⟩

/-- Every history of allowed calls on a vector with fields of 1..8 bytes runs without fault and agrees with
the list of records: setting a field changes that field only, growing keeps the records. -/
theorem C28_histories (sizes : List Nat) (hne : sizes ≠ []) (hs : ∀ s ∈ sizes, 1 ≤ s ∧ s ≤ 8) (os : List Op)
    (ho : opsOk sizes [] os) :
    ∃ v, runOps (new sizes) os = some v ∧ Shows v sizes (os.foldl (specStep sizes) []) := by
  obtain ⟨v, e, r⟩ := run_rep ⟨hne, hs⟩ os (new sizes) [] (new_rep sizes) ho
  exact ⟨v, e, rep_shows ⟨hne, hs⟩ r⟩

example := C28_histories [1, 2, 8] (by decide) (by decide) [.pushBack [300, 7], .emplaceBack, .set 1 2 99, .resizeVals 5 [1, 2, 3], .setR 4 2 4 77]
  (by simp [opsOk, opOk, specStep])

/-- The case of one write spelled out: the field reads as the value modulo its width, all other fields of
all records are as before. -/
theorem C28_write_read (sizes : List Nat) (hne : sizes ≠ []) (hs : ∀ s ∈ sizes, 1 ≤ s ∧ s ≤ 8) (os : List Op)
    (ho : opsOk sizes [] os) (v : MVec) (e : runOps (new sizes) os = some v) (n i f x : Nat) (hn : v.size = some n)
    (hi : i < n) (hf : f < sizes.length) :
    ∃ v', v.set i f x = some v' ∧ v'.size = some n ∧ v'.get i f = some (x % 256 ^ (sizes[f])) ∧
      ∀ j g, j < n → g < sizes.length → (j ≠ i ∨ g ≠ f) → ∃ y, v.get j g = some y ∧ v'.get j g = some y := by
  have hl : Layout sizes := ⟨hne, hs⟩
  obtain ⟨v1, e1, r⟩ := run_rep hl os (new sizes) [] (new_rep sizes) ho
  rw [e] at e1
  obtain rfl := Option.some.inj e1
  have hn' := r.wf.sz hl
  rw [hn] at hn'
  have hnl := Option.some.inj hn'
  have hw := r.wf
  rw [← hnl] at hw
  obtain ⟨v', e', w', a, b⟩ := setR_full hw hl i f x hi hf
  refine ⟨v', e', w'.sz hl, ?_, ?_⟩
  · rw [get_spec w' hl i f hi hf, a]
    simp [List.getD_eq_getElem?_getD, hf]
  · intro j g hj hg hne'
    exact ⟨_, get_spec hw hl j g hj hg, by rw [get_spec w' hl j g hj hg, b j g hj hg hne']⟩

example : Layout [1, 2, 8] ∧ opsOk [1, 2, 8] [] [.pushBack [300, 7], .emplaceBack, .set 1 2 99, .resizeVals 5 [1, 2, 3], .setR 4 2 4 77] := by
  refine ⟨⟨by decide, by decide⟩, ?_⟩
  simp [opsOk, opOk, specStep]

example : ∃ v, runOps (new [1, 2]) [.pushBack [300, 7]] = some v ∧ v.get 0 0 = some 44 ∧ v.get 0 1 = some 7 :=
  ⟨_, rfl, by decide, by decide⟩

/-! ### C29: store and load -/

/-- Loading what was stored into a fresh object gives the same object and consumes exactly those bytes. -/
theorem C29_roundtrip (sizes : List Nat) (hne : sizes ≠ []) (hs : ∀ s ∈ sizes, 1 ≤ s ∧ s ≤ 8) (os : List Op)
    (ho : opsOk sizes [] os) (v : MVec) (e : runOps (new sizes) os = some v) (hb : v.bytes.length < 2 ^ 64)
    (hk : sizes.length < 2 ^ 64) (st : Stream) :
    (new []).load (v.store ++ st) = some (v, st) ∧ v.store.length = v.sizeInBytes + 4 := by
  have hl : Layout sizes := ⟨hne, hs⟩
  obtain ⟨v1, e1, r⟩ := run_rep hl os (new sizes) [] (new_rep sizes) ho
  rw [e] at e1
  obtain rfl := Option.some.inj e1
  have ht := r.wf.table
  constructor
  · unfold MVec.load MVec.store
    rw [List.append_assoc, readVec_writeVec 1]
    · simp only [Option.bind_eq_bind, Option.bind_some]
      rw [ht, entries_snd, readVec_writeVec 8]
      · have : (BitVec.ofNat 8 ∘ BitVec.toNat : Byte → Byte) = id := by funext b; simp
        simp only [Option.bind_some, List.map_map, this, List.map_id, Option.pure_def, MVec.setElementSizes, new, entries,
          List.nil_append, ← ht]
      · intro s h
        exact Nat.lt_of_le_of_lt (hs s h).2 (by decide)
      · exact hk
    · intro x hx
      obtain ⟨b, _, rfl⟩ := List.mem_map.1 hx
      exact b.isLt
    · simpa using hb
  · unfold MVec.store MVec.sizeInBytes
    rw [List.length_append, C47_size_vec, C47_size_vec]
    simp only [sizeVec, List.length_map]
    omega

example : ∃ v, (new []).load (v.store ++ [7#8]) = some (v, [7#8]) ∧ v.get 0 0 = some 44 :=
  ⟨_, (C29_roundtrip [1, 2] (by decide) (by decide) [.pushBack [300, 7]] (by simp [opsOk, opOk]) _ rfl (by decide) (by decide) [7#8]).1, by decide⟩

/-- Loading into an object that already has a layout appends: the block size is then the one of the loaded
layout but the first fields are those of the old one. -/
theorem C29_load_appends : ∃ v u, runOps (new [2]) [.pushBack [258]] = some v ∧ (new [1]).load (v.store) = some (u, []) ∧
    v.get 0 0 = some 258 ∧ u.get 0 0 = some 2 := ⟨_, _, rfl, rfl, by decide, by decide⟩

end Verif.Mult

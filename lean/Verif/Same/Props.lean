/-
Property theorems C120 and C121: structures with the same contents answer alike. The models are those of Verif/Fit, Verif/Dac, Verif/CDRW,
Verif/IArr, Verif/Wave, Verif/MBit and Verif/Succ; nothing is modelled here.
-/
import Verif.Fit.Props
import Verif.Dac.Props
import Verif.CDRW.Props
import Verif.IArr.Props
import Verif.Wave.Props
import Verif.MBit.Props
import Verif.Succ.Props

namespace Verif.Same

/-! ### C120 -/

/-- One list of numbers in a FitVector, a DacVector with the widths it chooses itself, a CDRWArray and an initialisable array: all have its size
and give its elements. -/
theorem C120_containers (srt : List (Nat × Nat) → List (Nat × Nat)) (hsrt : ∀ l, (srt l).Perm l) (cost : Nat → Nat) (maxLevels : Nat)
    (l : List Nat) (hne : l ≠ []) (hl : ∀ v ∈ l, v < 2 ^ 63) (hn : l.length < 2 ^ 31) :
    ∃ f d c a, Fit.ofVector l = some f ∧ Dac.make (Calc.splitPositions srt cost maxLevels) l [] = some d ∧ CDRW.ofList false l = some c ∧
      IArr.folkRange 0 l = some a ∧ f.size = l.length ∧ d.size = some l.length ∧ c.size = l.length ∧ a.fv.length = l.length ∧
      ∀ i x, l[i]? = some x → f.get i = some x ∧ d.get i = some x ∧ c.get i = some x ∧ a.get i = some x := by
  obtain ⟨f, ef, f1, f2, -⟩ := Fit.C26_ofVector l hne hl
  obtain ⟨d, ed, d1, d2, -⟩ := Dac.C32_values_optimized srt hsrt cost maxLevels l hne hl hn
  obtain ⟨c, ec, c1, c2⟩ := CDRW.C46_of_list l hne (by omega) hl
  obtain ⟨a, a', ea, ea', hlen, -, a2⟩ := IArr.C38_range 0 l [] (by intro i v h; cases h)
  cases ea'
  refine ⟨f, d, c, a, ef, ed, ec, ea, f1, d1, c1, hlen, fun i x hx => ?_⟩
  have hi := (List.getElem?_eq_some_iff.1 hx).1
  exact ⟨(f2 i hi).trans hx, (d2 i hi).trans hx, (c2 i hi).trans hx, (a2 i hi).trans hx⟩

example := C120_containers (fun l => l) (fun _ => List.Perm.refl _) (fun n => n + n / 4 + 191) 8 [5, 2 ^ 40, 0, 77777, 5] (by decide)
  (by simp) (by decide)

/-! ### C121 -/

/-- The values of a list written one after the other. -/
def sets (l : List Nat) : List MBit.Op := l.zipIdx.map fun p => .set p.2 p.1

theorem specRun_snoc (S : Nat) (os : List MBit.Op) (o : MBit.Op) : MBit.specRun S (os ++ [o]) = MBit.specStep S (MBit.specRun S os) o := by
  simp [MBit.specRun]

theorem specRun_sets (S : Nat) (l : List Nat) : ∀ i, i < l.length → MBit.specRun S (sets l) i = l[i]? := by
  induction l using List.reverseRecOn with
  | nil => intro i hi; cases hi
  | append_singleton l x ih =>
    intro i hi
    rw [List.length_append, List.length_singleton] at hi
    rw [sets, List.zipIdx_append, List.map_append]
    change MBit.specRun S (sets l ++ [.set (0 + l.length) x]) i = _
    rw [specRun_snoc, Nat.zero_add]
    unfold MBit.specStep
    dsimp only
    by_cases h : i = l.length
    · rw [if_pos h, h, List.getElem?_append_right (Nat.le_refl _)]
      simp
    · rw [if_neg h, ih i (by omega), List.getElem?_append_left (by omega)]
      rw [if_pos (by rw [List.getElem?_eq_getElem (by omega)]; rfl)]

theorem count_prefix (g : Nat → Option Nat) (l : List Nat) (h : ∀ i, i < l.length → g i = l[i]?) (x : Nat) :
    ∀ i, i ≤ l.length → (List.range i).countP (fun j => g j == some x) = (l.take i).count x := by
  intro i
  induction i with
  | zero => intro _; rfl
  | succ i ih =>
    intro hi
    rw [List.range_succ, List.countP_append, ih (by omega), List.take_add_one, List.count_append, List.countP_singleton, h i (by omega),
      List.getElem?_eq_getElem (by omega)]
    simp [List.count_cons]

/-- A list of small numbers in a MultiBitVector and in a WaveletTree: the same elements, and the same ranks where `rank` of the MultiBitVector
is defined. -/
theorem C121_ranks (S : Nat) (hS : S = 1 ∨ S = 2 ∨ S = 3) (l : List Nat) (hne : l ≠ []) (hl : ∀ v ∈ l, v < 2 ^ S) :
    ∃ t m, Wave.make l = some t ∧ MBit.runM S (MBit.empty S) (sets l ++ [.build]) = some m ∧
      ∀ i x, l[i]? = some x → t.get i = some x ∧ m.get S i = some x ∧ t.rank i = some ((l.take i).count x) ∧
        (x ≠ 0 → m.rank S i = t.rank i) := by
  have h8 : (2 : Nat) ^ S ≤ 8 := by rcases hS with rfl | rfl | rfl <;> decide
  have h256 : ∀ v ∈ l, v < 256 := fun v hv => by have := hl v hv; omega
  have hok : ∀ o ∈ sets l, o.Ok S := by
    intro o ho
    obtain ⟨p, hp, rfl⟩ := List.mem_map.1 ho
    exact hl _ (List.fst_mem_of_mem_zipIdx hp)
  obtain ⟨t, et, -, t2⟩ := Wave.C34_access l hne h256
  obtain ⟨t', et', t3⟩ := Wave.C35_rank l hne h256
  cases et.symm.trans et'
  obtain ⟨m, em, m2⟩ := MBit.C30_histories S hS (sets l ++ [.build]) (fun o ho => by
    rcases List.mem_append.1 ho with h | h
    · exact hok o h
    · rw [List.mem_singleton.1 h]; trivial)
  obtain ⟨m', em', m3⟩ := MBit.C31_histories S hS (sets l) hok
  cases em.symm.trans em'
  refine ⟨t, m, et, em, fun i x hx => ?_⟩
  have hi := (List.getElem?_eq_some_iff.1 hx).1
  have hs := specRun_sets S l
  refine ⟨(t2 i hi).trans hx, ?_, (t3 i x hx).1, fun h0 => ?_⟩
  · rw [m2, specRun_snoc]
    exact (hs i hi).trans hx
  · rw [m3 i x ((hs i hi).trans hx) h0, (t3 i x hx).1, count_prefix _ l hs x i (by omega)]

example : ∃ t m, Wave.make [5, 3, 0, 5, 7, 5] = some t ∧ MBit.runM 3 (MBit.empty 3) (sets [5, 3, 0, 5, 7, 5] ++ [.build]) = some m ∧
    t.rank 5 = some 2 ∧ m.rank 3 5 = some 2 := by
  obtain ⟨t, m, e1, e2, h⟩ := C121_ranks 3 (by decide) [5, 3, 0, 5, 7, 5] (by decide) (by decide)
  obtain ⟨-, -, h3, h4⟩ := h 5 5 rfl
  exact ⟨t, m, e1, e2, h3, (h4 (by decide)).trans h3⟩

theorem count_bits (l : List Nat) (hl : ∀ v ∈ l, v < 2) :
    (l.map (fun v => decide (v = 1))).count true = l.count 1 ∧ (l.map (fun v => decide (v = 1))).count false = l.count 0 := by
  induction l with
  | nil => exact ⟨rfl, rfl⟩
  | cons v l ih =>
    obtain ⟨h1, h2⟩ := ih (fun w hw => hl w (List.mem_cons_of_mem _ hw))
    rw [List.map_cons, List.count_cons, List.count_cons, List.count_cons, List.count_cons, h1, h2]
    have := hl v (List.mem_cons_self ..)
    rcases (by omega : v = 0 ∨ v = 1) with rfl | rfl <;> simp

/-- A list of bits in a SuccinctBitVector, a WaveletTree and a MultiBitVector: the same bits and the same ranks. -/
theorem C121_bits (us : Bool) (l : List Nat) (hne : l ≠ []) (hl : ∀ v ∈ l, v < 2) (v : BV.BVec) (hv : BV.Built v (l.map (fun x => decide (x = 1)))) :
    ∃ s t m, Succ.build us v = some s ∧ Wave.make l = some t ∧ MBit.runM 1 (MBit.empty 1) (sets l ++ [.build]) = some m ∧
      ∀ i x, l[i]? = some x → s.get i = some (decide (x = 1)) ∧ t.get i = some x ∧ m.get 1 i = some x ∧
        (if x = 1 then s.rank1 i else s.rank0 i) = t.rank i ∧ (x = 1 → s.rank1 i = m.rank 1 i) := by
  obtain ⟨s, es, s1⟩ := Succ.C20_rank us v _ hv
  obtain ⟨t, m, et, em, h⟩ := C121_ranks 1 (Or.inl rfl) l hne hl
  refine ⟨s, t, m, es, et, em, fun i x hx => ?_⟩
  have hi := (List.getElem?_eq_some_iff.1 hx).1
  obtain ⟨h1, h2, h3, h4⟩ := h i x hx
  obtain ⟨g1, g2, g3⟩ := s1 i (by rw [List.length_map]; exact hi)
  obtain ⟨c1, c2⟩ := count_bits (l.take i) (fun w hw => hl w (List.mem_of_mem_take hw))
  rw [← List.map_take, c1] at g1
  rw [← List.map_take, c2] at g2
  rw [List.getElem?_map, hx] at g3
  refine ⟨g3, h1, h2, ?_, fun e => ?_⟩
  · have := hl x (List.mem_of_getElem? hx)
    rcases (by omega : x = 0 ∨ x = 1) with rfl | rfl
    · rw [if_neg (by decide), g2, h3]
    · rw [if_pos rfl, g1, h3]
  · subst e
    rw [h4 (by decide), g1, h3]

example : ∃ v s t m, BV.Built v [true, false, false, true] ∧ Succ.build true v = some s ∧ Wave.make [1, 0, 0, 1] = some t ∧
    MBit.runM 1 (MBit.empty 1) (sets [1, 0, 0, 1] ++ [.build]) = some m ∧ s.rank0 2 = t.rank 2 ∧ s.rank1 3 = m.rank 1 3 := by
  obtain ⟨v, hv⟩ := BV.Built.exists [true, false, false, true]
  obtain ⟨s, t, m, e1, e2, e3, h⟩ := C121_bits true [1, 0, 0, 1] (by decide) (by decide) v hv
  exact ⟨v, s, t, m, hv, e1, e2, e3, (h 2 0 rfl).2.2.2.1, (h 3 1 rfl).2.2.2.2 rfl⟩

end Verif.Same

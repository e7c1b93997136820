/-
Property theorems C119 (CDRWArray: the cost of a history of writes).
-/
import Verif.CDRW.PropsSpace
import Verif.CHT.PropsAmort

namespace Verif.CDRW
open Verif.CHT
open Verif.Bits (clz64)
open Verif.Fit (FVec)
open Verif.IArr (M acc Runs Counts)

/-- CDRWArray.hpp:48-49 with the hash evaluations: `erase` counts once. -/
def eraseOldC (ts : List Tab) (pw vb i : Nat) : M (List Tab) :=
  if pw ≠ 0 ∧ pw ≠ vb then do
    let t ← (ts[pw]? : M Tab)
    let t ← acc (t.erase par false i)
    pure (ts.set pw t)
  else pure ts

/-- CDRWArray.hpp:51-52 with the hash evaluations of `set`, those of the elements moved by growth included. -/
def setNewC (ts : List Tab) (vb i value : Nat) : M (List Tab) :=
  if vb > 0 then do
    let t ← (ts[vb - 1]? : M Tab)
    let t ← t.setC par false i value
    pure (ts.set (vb - 1) t)
  else pure ts

/-- `set` with the hash evaluations, CDRWArray.hpp:45-53. -/
def Arr.setC (a : Arr) (i value : Nat) : M Arr := do
  let b ← (a.body : M (FVec × List Tab))
  let vb := 64 - clz64 (BitVec.ofNat 64 value)
  let pw ← (b.1.get i : M Nat)
  let ts ← eraseOldC b.2 pw vb i
  let ws ← (b.1.set i vb : M FVec)
  let ts ← setNewC ts vb i value
  pure { a with body := some (ws, ts) }

/-- A history of `set(i, v)` with the hash evaluations. -/
def writesC : Arr → List (Nat × Nat) → M Arr
  | a, [] => pure a
  | a, (i, v) :: l => do
    let a ← a.setC i v
    writesC a l

theorem writesC_append (a : Arr) : ∀ (l r : List (Nat × Nat)), writesC a (l ++ r) = writesC a l >>= fun a => writesC a r
  | [], r => by simp [writesC]
  | (i, v) :: l, r => by
    simp only [List.cons_append, writesC, bind_assoc]
    congr 1
    funext a
    exact writesC_append a l r

/-! The counted functions return what the functions of the model return. -/

theorem eraseOld_counts (ts : List Tab) (pw vb i : Nat) : Counts (eraseOldC ts pw vb i) (eraseOld ts pw vb i) := by
  unfold eraseOldC eraseOld
  split
  · exact (Counts.lift _).bind fun t => (Counts.acc _).bind fun t => Counts.pure _
  · exact Counts.pure _

theorem setNew_counts (ts : List Tab) (vb i v : Nat) : Counts (setNewC ts vb i v) (setNew ts vb i v) := by
  unfold setNewC setNew
  split
  · exact (Counts.lift _).bind fun t => (setD_counts false 3 t i v).bind fun t => Counts.pure _
  · exact Counts.pure _

theorem set_counts (a : Arr) (i v : Nat) : Counts (a.setC i v) (a.set i v) := by
  unfold Arr.setC Arr.set
  exact (Counts.lift _).bind fun b => (Counts.lift _).bind fun pw => (eraseOld_counts _ _ _ _).bind fun ts => (Counts.lift _).bind fun ws =>
    (setNew_counts _ _ _ _).bind fun ts => Counts.pure _

/-- C119: the counted history returns what the history of the model returns, whatever the calls. -/
theorem C119_returns (a : Arr) : ∀ ops : List (Nat × Nat), Counts (writesC a ops) (writes a ops) := by
  intro ops
  induction ops generalizing a with
  | nil => exact Counts.pure _
  | cons o ops ih => exact (set_counts a o.1 o.2).bind fun a => ih a

/-! ### The bound -/

/-- The slots of the tables for values of at most 63 bits. -/
def slots (ts : List Tab) : Nat := ((ts.take 63).map Tab.bucket).sum

theorem sum_take_set (f : Tab → Nat) (t t' : Tab) : ∀ (m k : Nat) (ts : List Tab), k < m → ts[k]? = some t →
    (((ts.set k t').take m).map f).sum + f t = ((ts.take m).map f).sum + f t'
  | 0, _, _, h, _ => by omega
  | m + 1, _, [], _, e => by simp at e
  | m + 1, 0, x :: ts, _, e => by
    simp only [List.getElem?_cons_zero, Option.some.injEq] at e
    subst e
    simp
    omega
  | m + 1, k + 1, x :: ts, h, e => by
    have := sum_take_set f t t' m k ts (by omega) (by simpa using e)
    simp only [List.set_cons_succ, List.take_succ_cons, List.map_cons, List.sum_cons]
    omega

variable {kb n m : Nat} {A : Nat → Nat}

/-- One write evaluates the hash once if the value is not zero, and once more for each element that it moves; for these the number of slots grows by two each. -/
theorem set_runs {ws : FVec} {ts : List Tab} (O : Ok kb n m ⟨n, some (ws, ts)⟩ A) {i v : Nat} (hi : i < n) (hv : v < 2 ^ 63) (hf : fits A i v) {a' : Arr}
    (e : Arr.set ⟨n, some (ws, ts)⟩ i v = some a') {ops : List (Nat × Nat)} (F : ∀ w, 1 ≤ w → w ≤ 63 → Fine par kb w 3 (sets w ops)) (hkb : n ≤ 2 ^ kb)
    (hts : ∀ w, w < 63 → ∃ t0 t, start par kb 8 (w + 1) = some t0 ∧ run par t0 (sets (w + 1) ops) = some t ∧ ts[w]? = some t) :
    ∃ c ws' ts', a' = ⟨n, some (ws', ts')⟩ ∧ Runs (Arr.setC ⟨n, some (ws, ts)⟩ i v) a' ((if v = 0 then 0 else 1) + c) ∧ 2 * c + slots ts ≤ slots ts' := by
  obtain ⟨ws0, ts0, e0, w1, s1, hw, _⟩ := O
  cases e0
  have hget : ws.get i = some (Nat.size (A i)) := by rw [Fit.get_spec ws 7 w1 i (by omega), hw i hi]
  have hne : ¬ (Nat.size (A i) ≠ 0 ∧ Nat.size (A i) ≠ Nat.size v) := by
    rintro ⟨h1, h2⟩
    rcases hf with h | h
    · exact h1 (by rw [h, Nat.size_zero])
    · exact h2 h
  have he : eraseOld ts (Nat.size (A i)) (Nat.size v) i = some ts := by
    unfold eraseOld
    rw [if_neg hne]
  have heC : eraseOldC ts (Nat.size (A i)) (Nat.size v) i = pure ts := by
    unfold eraseOldC
    rw [if_neg hne]
  unfold Arr.set at e
  rw [bits_eq v (by omega)] at e
  simp only [Option.bind_eq_bind, Option.bind_some, hget, he, Option.bind_eq_some_iff, Option.pure_def, Option.some.injEq] at e
  obtain ⟨ws', ew, ts', e2, rfl⟩ := e
  have main : ∀ c, Runs (setNewC ts (Nat.size v) i v) ts' c → Runs (Arr.setC ⟨n, some (ws, ts)⟩ i v) ⟨n, some (ws', ts')⟩ c := by
    intro c hr
    unfold Arr.setC
    rw [bits_eq v (by omega)]
    refine ((Runs.lift (ws, ts)).bind (n' := c) ?_).cast (by omega)
    simp only
    rw [hget]
    refine ((Runs.lift _).bind (n' := c) ?_).cast (by omega)
    rw [heC]
    refine ((Runs.pure ts).bind (n' := c) ?_).cast (by omega)
    rw [ew]
    refine ((Runs.lift ws').bind (n' := c) ?_).cast (by omega)
    exact (hr.bind (f := fun ts => pure (⟨n, some (ws', ts)⟩ : Arr)) (Runs.pure _)).cast (Nat.add_zero c)
  by_cases h0 : Nat.size v > 0
  · have hv0 : v ≠ 0 := fun h => by rw [h, Nat.size_zero] at h0; omega
    have h63 : Nat.size v ≤ 63 := Nat.size_le.2 hv
    unfold setNew at e2
    rw [if_pos h0] at e2
    simp only [Option.bind_eq_bind, Option.bind_eq_some_iff, Option.pure_def, Option.some.injEq] at e2
    obtain ⟨t, et, t', et', rfl⟩ := e2
    obtain ⟨t0, t1, x0, x1, x2⟩ := hts (Nat.size v - 1) (by omega)
    rw [et] at x2
    cases x2
    rw [show Nat.size v - 1 + 1 = Nat.size v by omega] at x0 x1
    have hk : i < 2 ^ kb := by omega
    obtain ⟨_, _, _, y1, y2, y3, hs, hr⟩ := C116_set (F (Nat.size v) h0 h63) i v hk (Nat.lt_size_self v)
    obtain ⟨_, _, _, z1, z2, z3, hB⟩ := C92_set (F (Nat.size v) h0 h63) i v hk (Nat.lt_size_self v)
    rw [show (2 : Nat) ^ 3 = 8 from rfl] at y1 z1
    rw [x0] at y1 z1
    cases y1
    cases z1
    rw [x1] at y2 z2
    cases y2
    cases z2
    rw [et'] at y3 z3
    cases y3
    cases z3
    refine ⟨if keyCount (sets (Nat.size v) ops) = t.bucket * par.load / 100 then keyCount (sets (Nat.size v) ops) else 0, ws', _, rfl, main _ ?_, ?_⟩
    · unfold setNewC
      rw [if_pos h0, et, if_neg hv0]
      refine ((Runs.lift t).bind (n' := _) ?_).cast (Nat.zero_add _)
      exact (hr.bind (f := fun t => pure (ts.set (Nat.size v - 1) t)) (Runs.pure _)).cast (Nat.add_zero _)
    · have := sum_take_set Tab.bucket t t' 63 (Nat.size v - 1) ts (by omega) et
      unfold slots
      have hl : par.load = 50 := rfl
      rw [hl] at hB ⊢
      split at hB <;> simp only [*, if_true, if_false] <;> omega
  · have hz : Nat.size v = 0 := by omega
    have hv0 : v = 0 := Nat.size_eq_zero.1 hz
    unfold setNew at e2
    rw [if_neg h0] at e2
    cases e2
    refine ⟨0, ws', ts, rfl, main _ ?_, by omega⟩
    unfold setNewC
    rw [if_neg h0, if_pos hv0]
    exact Runs.pure _

/-- The number of writes of a value other than zero. -/
def nonzero (ops : List (Nat × Nat)) : Nat := ops.countP (fun o => o.2 ≠ 0)

theorem writes_runs (hkb : kb ≤ 60) (hn : n ≤ 2 ^ kb) {ws : FVec} {ts : List Tab} (O : Ok kb n 0 ⟨n, some (ws, ts)⟩ (fun _ => 0))
    (hst : ∀ w, w < 63 → ∃ t, start par kb 8 (w + 1) = some t ∧ ts[w]? = some t) (ops : List (Nat × Nat)) :
    ops.length ≤ 2 ^ 54 → (∀ o ∈ ops, o.1 < n ∧ o.2 < 2 ^ 63) →
    (∀ l i v r, ops = l ++ (i, v) :: r → valueOf l i = 0 ∨ Nat.size (valueOf l i) = Nat.size v) →
    ∃ c ws' ts', writes ⟨n, some (ws, ts)⟩ ops = some ⟨n, some (ws', ts')⟩ ∧ Runs (writesC ⟨n, some (ws, ts)⟩ ops) ⟨n, some (ws', ts')⟩ (nonzero ops + c) ∧
      2 * c + slots ts ≤ slots ts' := by
  induction ops using List.reverseRecOn with
  | nil => exact fun _ _ _ => ⟨0, ws, ts, rfl, Runs.pure _, by omega⟩
  | append_singleton ops o ih =>
    intro hlen hok hfit
    obtain ⟨i, v⟩ := o
    have hlen' := hlen
    rw [List.length_append, List.length_singleton] at hlen'
    have hok' : ∀ o ∈ ops, o.1 < n ∧ o.2 < 2 ^ 63 := fun o ho => hok o (by simp [ho])
    have hfit' : ∀ l i v r, ops = l ++ (i, v) :: r → valueOf l i = 0 ∨ Nat.size (valueOf l i) = Nat.size v :=
      fun l i' v' r e => hfit l i' v' (r ++ [(i, v)]) (by rw [e]; simp)
    obtain ⟨c1, ws1, ts1, e1, r1, h1⟩ := ih (by omega) hok' hfit'
    obtain ⟨wsx, tsx, ex, O1, hl1, hx⟩ := writes_tables (by omega) hn O ops (by omega) hok' hfit'
    rw [e1] at ex
    cases ex
    obtain ⟨hi, hv⟩ := hok (i, v) (by simp)
    have hf := hfit ops i v [] rfl
    obtain ⟨a2, e2, _⟩ := set_ok (by omega) hn O1 (by omega) hi hv hf
    obtain ⟨c2, ws2, ts2, rfl, r2, h2⟩ := set_runs O1 hi hv hf e2 (fun w hw hw' => fine_sets hkb hn hw hw' (by omega) hok') hn
      (fun w hw => by
        obtain ⟨t0, a, b⟩ := hst w hw
        obtain ⟨t, c, d⟩ := hx w t0 b
        exact ⟨t0, t, a, c, d⟩)
    refine ⟨c1 + c2, ws2, ts2, ?_, ?_, by omega⟩
    · rw [writes_append, e1]
      simp only [Option.bind_some, writes, e2]
    · rw [writesC_append]
      refine (r1.bind (r2.bind (Runs.pure _))).cast ?_
      unfold nonzero
      rw [List.countP_append]
      by_cases hz : v = 0 <;> simp [hz] <;> omega

theorem sum_ones (B : Nat) (f : Nat → Nat) : ∀ n, (∀ i, i < n → Nat.size (f i) ≤ B) →
    ∑ w ∈ Finset.range B, count n (w + 1) f = (List.range n).countP (fun i => f i ≠ 0)
  | 0, _ => by simp [count]
  | n + 1, h => by
    have h1 : ∀ w, count (n + 1) (w + 1) f = count n (w + 1) f + if Nat.size (f n) = w + 1 then 1 else 0 := by
      intro w
      unfold count
      rw [List.range_succ, List.countP_append]
      by_cases hs : Nat.size (f n) = w + 1 <;> simp [hs]
    have h2 : ∑ w ∈ Finset.range B, (if Nat.size (f n) = w + 1 then 1 else 0) = if f n = 0 then 0 else 1 := by
      have hs := h n (by omega)
      by_cases hz : f n = 0
      · rw [hz]
        simp
      · have hp : Nat.size (f n) ≠ 0 := fun h => hz (Nat.size_eq_zero.1 h)
        rw [if_neg hz, Finset.sum_eq_single (Nat.size (f n) - 1)]
        · rw [if_pos (by omega)]
        · intro w _ hw
          rw [if_neg (by omega)]
        · intro hm
          exact absurd (Finset.mem_range.2 (by omega)) hm
    rw [Finset.sum_congr rfl (fun w _ => h1 w), Finset.sum_add_distrib, h2, sum_ones B f n (fun i hi => h i (by omega)), List.range_succ, List.countP_append]
    by_cases hz : f n = 0 <;> simp [hz]

/-- C119: a history of writes that keeps the bit lengths evaluates the hash once for each value other than zero, and moves at most two elements for each element that
is not zero in the end, however many of the 63 tables grow and however often. -/
theorem C119_history (n : Nat) (ops : List (Nat × Nat)) (h0 : 1 ≤ n) (hn : n ≤ 2 ^ 60) (hlen : ops.length ≤ 2 ^ 54) (hok : ∀ o ∈ ops, o.1 < n ∧ o.2 < 2 ^ 63)
    (hfit : ∀ l i v r, ops = l ++ (i, v) :: r → valueOf l i = 0 ∨ Nat.size (valueOf l i) = Nat.size v) :
    ∃ a a' c, new false n = some a ∧ writes a ops = some a' ∧ Runs (writesC a ops) a' (ops.countP (fun o => o.2 ≠ 0) + c) ∧
      c ≤ 2 * (List.range n).countP (fun i => valueOf ops i ≠ 0) := by
  obtain ⟨b1, b2⟩ := sizeBits_spec (n := n) (by omega) (by omega)
  have b3 : sizeBits n ≤ 60 := by
    rw [show sizeBits n = Nat.size (n - 1) from bits_eq (n - 1) (by omega)]
    exact Nat.size_le.2 (by omega)
  obtain ⟨a, e, O⟩ := new_ok (n := n) (by omega) (by omega)
  have e' := e
  simp only [new, if_neg (show ¬ false = true by decide), if_neg (show ¬ n = 0 by omega), Option.bind_eq_bind, Option.bind_eq_some_iff, Option.pure_def,
    Option.some.injEq] at e'
  obtain ⟨ws, _, ts, ets, rfl⟩ := e'
  obtain ⟨hl, hst⟩ := tables_start ets
  obtain ⟨c, ws', ts', ew, hr, hc⟩ := writes_runs b3 b1 O (fun w hw => hst w (by omega) hw) ops hlen hok hfit
  obtain ⟨_, _, ws2, ts2, e2, ew2, eb, _, _, hl2, ht⟩ := C115_tables n ops h0 hn hlen hok hfit
  obtain ⟨_, _, _, hlt⟩ := writes_ok b2 b1 O ops (by omega) hok hfit
  rw [e] at e2
  cases e2
  rw [ew] at ew2
  cases ew2
  cases eb
  refine ⟨_, _, c, e, ew, hr, ?_⟩
  have hs0 : slots ts = 504 := by
    unfold slots
    rw [sum_map_eq _ 63 ts (by omega), Finset.sum_congr rfl (g := fun _ => 8)]
    · simp
    · intro w hw
      obtain ⟨t, x1, x2⟩ := hst w (by have := Finset.mem_range.1 hw; omega) (Finset.mem_range.1 hw)
      have hb : t.bucket = 2 ^ 3 := start_bucket (b := 3) x1
      simp only [x2, Option.map_some, Option.getD_some, hb]
      rfl
  have hs1 : slots ts' ≤ 504 + 4 * (List.range n).countP (fun i => valueOf ops i ≠ 0) := by
    unfold slots
    rw [sum_map_eq _ 63 ts' (by omega), ← sum_ones 63 (valueOf ops) n (fun i _ => Nat.size_le.2 (hlt i)), Finset.mul_sum,
      show 504 = ∑ w ∈ Finset.range 63, 8 by simp, ← Finset.sum_add_distrib]
    refine Finset.sum_le_sum fun w hw => ?_
    obtain ⟨t, g, hs, hb, _⟩ := ht (w + 1) (by omega) (by have := Finset.mem_range.1 hw; omega)
    rw [show w + 1 - 1 = w by omega] at g
    rw [g]
    simp only [Option.map_some, Option.getD_some]
    unfold count
    omega
  omega

/-- Six elements of three bits: the fifth one moves the four before it. -/
def six : List (Nat × Nat) := [(0, 4), (1, 5), (2, 6), (3, 7), (4, 0), (5, 4), (6, 5), (0, 7)]

example : ∃ a a' c, new false 7 = some a ∧ Runs (writesC a six) a' (7 + c) ∧ c ≤ 12 := by
  obtain ⟨a, a', c, e, _, hr, hc⟩ := C119_history 7 six (by decide) (by decide) (by decide) (by decide) (keeps_of (by decide +kernel))
  exact ⟨a, a', c, e, hr, Nat.le_trans hc (by decide +kernel)⟩

example : ((new false 7).bind (fun a => (writesC a six 0).map Prod.snd)) = some (7 + 4) := by decide +kernel

example : ∃ a, new false 7 = some a ∧ Counts (writesC a six) (writes a six) ∧ (writes a six).isSome := by
  obtain ⟨a, a', _, e, ew, _⟩ := C119_history 7 six (by decide) (by decide) (by decide) (by decide) (keeps_of (by decide +kernel))
  exact ⟨a, e, C119_returns a six, by rw [ew]; rfl⟩

end Verif.CDRW

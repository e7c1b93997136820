/-
The accesses to `arr_` and `values_` that a call makes. Every read and every write of an element counts once; a test of a flag reads the slot each time.
-/
import Verif.IArr.Count
import Verif.CHT.Safe

namespace Verif.CHT
open Verif.Bits Verif.Fit
open Verif.IArr (M acc Runs Counts)

/-- The first loop of `ToClusterHead` with its accesses (`IsOccupied` and `IsShifted`), CHT.hpp:74-79. -/
def Tab.backC (t : Tab) : (fuel i c : Nat) → M (Nat × Nat)
  | 0, _, _ => fun _ => none
  | n + 1, i, c => do
    let w ← acc (t.arr.get (t.pred i))
    let w' ← acc (t.arr.get (t.pred i))
    if isSh w' then t.backC n (t.pred i) (if isOcc w then c + 1 else c) else pure (t.pred i, if isOcc w then c + 1 else c)

/-- The second loop of `ToClusterHead` with its accesses, CHT.hpp:80-84. -/
def Tab.fwdC (t : Tab) : (fuel i c : Nat) → M Nat
  | _, i, 0 => pure i
  | 0, _, _ + 1 => fun _ => none
  | n + 1, i, c + 1 => do
    let w ← acc (t.arr.get (t.succ i))
    if isCont w then t.fwdC n (t.succ i) (c + 1) else t.fwdC n (t.succ i) c

/-- `ToClusterHead` with its accesses, CHT.hpp:71-86. -/
def Tab.headC (t : Tab) (i : Nat) : M Nat := do
  let w ← acc (t.arr.get i)
  if isSh w then do
    let r ← t.backC t.bucket i 0
    t.fwdC (t.bucket * t.bucket + t.bucket) r.1 r.2
  else pure i

/-- The loops over a run with their accesses, CHT.hpp:97-103, 122-134, 183-192. -/
def Tab.findC (t : Tab) (q : Nat) : (fuel i : Nat) → M (Nat × Bool)
  | 0, _ => fun _ => none
  | n + 1, i => do
    let w ← acc (t.arr.get i)
    if t.quo w = q then pure (i, true)
    else do
      let w ← acc (t.arr.get (t.succ i))
      if isCont w then t.findC q n (t.succ i) else pure (t.succ i, false)

/-- `get` with its accesses, CHT.hpp:88-104. -/
def Tab.getC (P : Par) (t : Tab) (key : Nat) : M (Bool × Nat) := do
  let h ← (P.hash t.keyBits key : M Nat)
  let w ← acc (t.arr.get (h &&& t.bucketMask))
  if isOcc w then do
    let i ← t.headC (h &&& t.bucketMask)
    let r ← t.findC (h >>> t.bucketBits) t.bucket i
    if r.2 then do
      let v ← acc (t.values.get r.1)
      pure (true, v)
    else pure (false, 0)
  else pure (false, 0)

/-- The search for an empty slot with its accesses, CHT.hpp:136-139. -/
def Tab.nextNullC (t : Tab) : (fuel j : Nat) → M Nat
  | 0, _ => fun _ => none
  | n + 1, j => do
    let w ← acc (t.arr.get (t.succ j))
    if isNull w then pure (t.succ j) else t.nextNullC n (t.succ j)

/-- The loop that moves slots with its accesses (two reads and a write of `arr_`, a read and a write of `values_`), CHT.hpp:140-149. -/
def Tab.shiftC (i : Nat) : (fuel j : Nat) → Tab → M Tab
  | 0, _, _ => fun _ => none
  | n + 1, j, t => do
    let a ← acc (t.arr.get j)
    let b ← acc (t.arr.get (t.pred j))
    let arr ← acc (t.arr.set j ((a &&& (kOcc ||| kDel)) ||| (b &&& (t.quoMask ||| kCont)) ||| kSh))
    let x ← acc (t.values.get (t.pred j))
    let values ← acc (t.values.set j x)
    if i = t.pred j then pure { t with arr := arr, values := values } else Tab.shiftC i n (t.pred j) { t with arr := arr, values := values }

/-- CHT.hpp:135-151 with its accesses. -/
def Tab.makeRoomC (t : Tab) (i : Nat) : M Tab := do
  let w ← acc (t.arr.get i)
  if isNull w then pure t
  else do
    let j ← t.nextNullC t.bucket i
    Tab.shiftC i t.bucket j t

/-- CHT.hpp:152-166 with its accesses: `IsOccupied`, then a read and a write for each assignment. -/
def Tab.markC (t : Tab) (h i q : Nat) : M Tab := do
  let w ← acc (t.arr.get h)
  if isOcc w then do
    let a ← acc (t.arr.get i)
    let arr ← acc (t.arr.set i ((a &&& kOcc) ||| (q <<< 4) ||| kCont ||| kSh))
    pure { t with arr := arr }
  else do
    let w' ← acc (t.arr.get h)
    let arr ← acc (t.arr.set h (w' ||| kOcc))
    let a ← acc (arr.get i)
    let arr ← acc (arr.set i ((a &&& kOcc) ||| (q <<< 4) ||| (if i ≠ h then kSh else 0)))
    pure { t with arr := arr }

/-- CHT.hpp:135-169 with its accesses. -/
def Tab.insertC (t : Tab) (h i q value : Nat) : M Tab := do
  let t ← t.makeRoomC i
  let t ← t.markC h i q
  let values ← acc (t.values.set i value)
  pure { t with values := values, size := (t.size + 1) % 2 ^ 64, used := t.used + 1 }

/-- The branch for a key that is present with its accesses, CHT.hpp:125-130. -/
def Tab.assignC (t : Tab) (i value : Nat) : M Tab := do
  let w ← acc (t.arr.get i)
  if isDel w then do
    let w' ← acc (t.arr.get i)
    let arr ← acc (t.arr.set i (w' &&& (2 ^ 64 - 1 - kDel)))
    let values ← acc (t.values.set i value)
    pure { t with arr := arr, size := (t.size + 1) % 2 ^ 64, values := values }
  else do
    let values ← acc (t.values.set i value)
    pure { t with values := values }

/-- `set` behind the check of the load with its accesses, CHT.hpp:118-170. -/
def Tab.putC (P : Par) (t : Tab) (key value : Nat) : M Tab := do
  let h ← (P.hash t.keyBits key : M Nat)
  let i ← t.headC (h &&& t.bucketMask)
  let w ← acc (t.arr.get (h &&& t.bucketMask))
  if isOcc w then do
    let r ← t.findC (h >>> t.bucketBits) t.bucket i
    if r.2 then t.assignC r.1 value else t.insertC (h &&& t.bucketMask) r.1 (h >>> t.bucketBits) value
  else t.insertC (h &&& t.bucketMask) i (h >>> t.bucketBits) value

/-- `erase` behind the check of the size with its accesses, CHT.hpp:177-193. -/
def Tab.eraseInC (P : Par) (t : Tab) (key : Nat) : M Tab := do
  let h ← (P.hash t.keyBits key : M Nat)
  let q ← (t.eraseQuo h : M Nat)
  let w ← acc (t.arr.get (h &&& t.bucketMask))
  if isOcc w then do
    let i ← t.headC (h &&& t.bucketMask)
    let r ← t.findC q t.bucket i
    if r.2 then do
      let w ← acc (t.arr.get r.1)
      if isDel w then pure t
      else do
        let w' ← acc (t.arr.get r.1)
        let arr ← acc (t.arr.set r.1 (w' ||| kDel))
        pure { t with arr := arr, size := (t.size + 2 ^ 64 - 1) % 2 ^ 64 }
    else pure t
  else pure t

variable {kb vw : Nat} {t : Tab} {s : Nat} {home : Nat → Nat}

/-- A counted read that succeeds. -/
theorem runs_acc {β : Type} {r : Option β} {x : β} (h : r = some x) : Runs (acc r) x 1 := h ▸ Runs.acc x

theorem runs_lift {β : Type} {r : Option β} {x : β} (h : r = some x) : Runs (r : M β) x 0 := h ▸ Runs.lift x

theorem back_runs (w : WT kb vw t) (L : Lay t.bucket (view kb t s) home) : ∀ (p n k : Nat), p < t.bucket → p ≤ n → (view kb t s p).sh = true →
    ∃ c, c < p ∧ (view kb t s c).sh = false ∧ (∀ q, c < q → q ≤ p → (view kb t s q).sh = true) ∧
      Runs (t.backC n ((s + p) % t.bucket) k) ((s + c) % t.bucket, k + cnt (view kb t s) c p) (2 * (p - c)) := by
  intro p
  induction p with
  | zero =>
    intro n k hp _ hs
    have := ((L.sh 0 hp).1 hs).2
    omega
  | succ p ih =>
    intro n k hp hn hs
    obtain ⟨n, rfl⟩ : ∃ m, n = m + 1 := ⟨n - 1, by omega⟩
    obtain ⟨x, hx, ho, _, hsh, _⟩ := read_view w s p
    have hpr : t.pred ((s + (p + 1)) % t.bucket) = (s + p) % t.bucket := by
      rw [pred_idx w _ (by omega)]
      rfl
    have key : ∀ y m, Runs (if isSh x then t.backC n ((s + p) % t.bucket) (if isOcc x then k + 1 else k) else pure ((s + p) % t.bucket, if isOcc x then k + 1 else k)) y m →
        Runs (t.backC (n + 1) ((s + (p + 1)) % t.bucket) k) y (2 + m) := by
      intro y m h
      rw [Tab.backC, hpr]
      exact ((runs_acc hx).bind ((runs_acc hx).bind h)).cast (by omega)
    rw [ho, hsh] at key
    by_cases hsp : (view kb t s p).sh = true
    · rw [if_pos hsp] at key
      obtain ⟨c, hc, hcs, hall, e⟩ := ih n (if (view kb t s p).occ = true then k + 1 else k) (by omega) (by omega) hsp
      refine ⟨c, by omega, hcs, ?_, ?_⟩
      · intro q h1 h2
        by_cases hq : q = p + 1
        · rw [hq]; exact hs
        · exact hall q h1 (by omega)
      · have := (key _ _ e).cast (show _ = 2 * (p + 1 - c) by omega)
        rw [cnt]
        simp only [show c ≤ p by omega, true_and]
        split
        · rename_i h
          rw [if_pos h] at this
          rw [show k + (cnt (view kb t s) c p + 1) = k + 1 + cnt (view kb t s) c p by omega]
          exact this
        · rename_i h
          rw [if_neg h] at this
          exact this
    · rw [if_neg hsp] at key
      refine ⟨p, by omega, by simpa using hsp, ?_, ?_⟩
      · intro q h1 h2
        rw [show q = p + 1 by omega]
        exact hs
      · have := (key _ _ (Runs.pure _)).cast (show _ = 2 * (p + 1 - p) by omega)
        rw [cnt, cnt_zero (fun q h1 h2 => by omega)]
        simp only [Nat.le_refl, true_and, Nat.zero_add]
        split
        · rename_i h
          rw [if_pos h] at this
          exact this
        · rename_i h
          rw [if_neg h] at this
          exact this

theorem fwd_runs (w : WT kb vw t) (L : Lay t.bucket (view kb t s) home) {h i c : Nat} (H : Head t.bucket (view kb t s) home h i)
    (hfil : ∀ q, c ≤ q → q < i → (view kb t s q).fil ∧ home q < h) (hhB : h < t.bucket) :
    ∀ (d j n : Nat), j + d + 1 = i → c ≤ j → d + 1 ≤ n → Runs (t.fwdC n ((s + j) % t.bucket) (cnt (view kb t s) (home j) h)) ((s + i) % t.bucket) (d + 1) := by
  have hi := H.leB
  intro d
  induction d with
  | zero =>
    intro j n hj hcj hn
    obtain ⟨n, rfl⟩ : ∃ m, n = m + 1 := ⟨n - 1, by omega⟩
    have hf := hfil j hcj (by omega)
    have ho := L.occ_home (show j < t.bucket by omega) hf.1
    have hc1 : cnt (view kb t s) (home j) h = 0 + 1 := by
      rw [cnt_first ho hf.2, cnt_zero]
      intro q h1 h2
      by_contra hq
      obtain ⟨g, hg, hgf, e⟩ := (L.occ q (by omega)).1 (by simpa using hq)
      by_cases hgj : g ≤ j
      · have := L.mono g j hgj (by omega) hgf hf.1
        omega
      · have := H.after L hg hgf (by omega)
        omega
    obtain ⟨x, hx, _, hcx, _⟩ := read_view w s (j + 1)
    have hncont : (view kb t s (j + 1)).cont = false := by
      by_cases hjB : j + 1 < t.bucket
      · by_contra hc
        obtain ⟨_, h2, h3⟩ := (L.cont j hjB).1 (by simpa using hc)
        have := H.after L hjB h2 (by omega)
        omega
      · have : j + 1 = 0 + t.bucket := by omega
        rw [this, view_per]
        exact L.cont0
    rw [hc1]
    rw [Tab.fwdC, succ_idx w, Nat.add_assoc]
    refine (runs_acc hx).bind (n' := 0) ?_
    rw [if_neg (by rw [hcx, hncont]; simp)]
    rw [show i = j + 1 by omega, Tab.fwdC]
    exact Runs.pure _
  | succ d ih =>
    intro j n hj hcj hn
    obtain ⟨n, rfl⟩ : ∃ m, n = m + 1 := ⟨n - 1, by omega⟩
    have hf := hfil j hcj (by omega)
    have hf1 := hfil (j + 1) (by omega) (by omega)
    have ho := L.occ_home (show j < t.bucket by omega) hf.1
    have ih := ih (j + 1) n (by omega) (by omega) (by omega)
    have hm := L.mono j (j + 1) (by omega) (by omega) hf.1 hf1.1
    obtain ⟨x, hx, _, hcx, _⟩ := read_view w s (j + 1)
    have hcont := L.cont j (by omega)
    rw [cnt_first ho hf.2]
    rw [Tab.fwdC, succ_idx w, Nat.add_assoc]
    refine ((runs_acc hx).bind (n' := d + 1) ?_).cast (by omega)
    rw [hcx]
    by_cases hc : (view kb t s (j + 1)).cont = true
    · rw [if_pos hc]
      rw [← (hcont.1 hc).2.2, cnt_first ho hf.2] at ih
      exact ih
    · rw [if_neg hc]
      have hne : home j ≠ home (j + 1) := fun e => hc (hcont.2 ⟨hf.1, hf1.1, e⟩)
      rw [cnt_skip (show home j + 1 ≤ home (j + 1) by omega)]
      · exact ih
      · intro q h1 h2 h3
        by_contra hq
        obtain ⟨g, hg, hgf, e⟩ := (L.occ q (by omega)).1 (by simpa using hq)
        by_cases hgj : g ≤ j
        · have := L.mono g j hgj (by omega) hgf hf.1
          omega
        · have := L.mono (j + 1) g (by omega) hg hf1.1 hgf
          omega

/-- `ToClusterHead` goes back to a slot `c` that is not shifted, over filled slots. -/
theorem head_runs (w : WT kb vw t) (L : Lay t.bucket (view kb t s) home) {h i : Nat} (hh : h < t.bucket) (H : Head t.bucket (view kb t s) home h i) :
    ∃ c, c ≤ h ∧ (view kb t s c).sh = false ∧ (∀ q, c ≤ q → q < i → (view kb t s q).fil) ∧
      Runs (t.headC ((s + h) % t.bucket)) ((s + i) % t.bucket) (1 + 2 * (h - c) + (i - c)) := by
  obtain ⟨x, hx, _, _, hsx, _⟩ := read_view w s h
  by_cases hs : (view kb t s h).sh = true
  · obtain ⟨c, hc, hcs, hall, e⟩ := back_runs w L h t.bucket 0 hh (by omega) hs
    have hsh := (L.sh h hh).1 hs
    have hhi : h < i := by
      by_contra hle
      have : i = h := by have := H.le; omega
      have := H.post (by omega) (this ▸ hsh.1)
      rw [‹i = h›] at this
      omega
    have hfil : ∀ q, c ≤ q → q < i → (view kb t s q).fil ∧ home q < h := by
      intro q h1 h2
      by_cases hqh : h ≤ q
      · exact H.pre q hqh h2
      · have hf : (view kb t s q).fil := by
          by_cases hqc : q = c
          · subst hqc
            have h3 := (L.sh (q + 1) (by omega)).1 (hall (q + 1) (by omega) (by omega))
            exact L.between (q + 1) (by omega) h3.1 q (by omega) (by omega)
          · exact ((L.sh q (by omega)).1 (hall q (by omega) (by omega))).1
        have := L.le q (by omega) hf
        exact ⟨hf, by omega⟩
    have hhc : home c = c := by
      have h1 := hfil c (Nat.le_refl _) (by omega)
      have h2 := L.le c (by omega) h1.1
      by_contra hne
      have := (L.sh c (by omega)).2 ⟨h1.1, by omega⟩
      rw [hcs] at this
      simp at this
    have hf := fwd_runs w L H hfil hh (i - c - 1) c (t.bucket * t.bucket + t.bucket) (by omega) (Nat.le_refl _) (by have := H.leB; omega)
    rw [hhc] at hf
    rw [Nat.zero_add] at e
    refine ⟨c, by omega, hcs, fun q h1 h2 => (hfil q h1 h2).1, ?_⟩
    unfold Tab.headC
    refine ((runs_acc hx).bind (n' := 2 * (h - c) + (i - c)) ?_).cast (by omega)
    rw [if_pos (by rw [hsx]; exact hs)]
    exact e.bind (hf.cast (by omega))
  · have hi : i = h := by
      by_contra hne
      have hp := H.pre h (Nat.le_refl _) (by have := H.le; omega)
      exact hs ((L.sh h hh).2 hp)
    refine ⟨h, Nat.le_refl _, by simpa using hs, fun q h1 h2 => by omega, ?_⟩
    unfold Tab.headC
    refine ((runs_acc hx).bind (n' := 0) ?_).cast (by omega)
    rw [if_neg (by rw [hsx]; exact hs), hi]
    exact Runs.pure _

theorem find_runs (w : WT kb vw t) (L : Lay t.bucket (view kb t s) home) (h q : Nat) : ∀ (n i : Nat), i < t.bucket → t.bucket ≤ i + n → (view kb t s i).fil → home i = h →
    (∃ p, i ≤ p ∧ p < t.bucket ∧ (∀ g, i ≤ g → g ≤ p → (view kb t s g).fil) ∧ home p = h ∧ (view kb t s p).quo = q ∧
      Runs (t.findC q n ((s + i) % t.bucket)) ((s + p) % t.bucket, true) (2 * (p - i) + 1)) ∨
    (∃ e, i < e ∧ e ≤ t.bucket ∧ (∀ p, i ≤ p → p < e → (view kb t s p).fil ∧ home p = h ∧ (view kb t s p).quo ≠ q) ∧
      (∀ p, p < t.bucket → (view kb t s p).fil → e ≤ p → h < home p) ∧ Runs (t.findC q n ((s + i) % t.bucket)) ((s + e) % t.bucket, false) (2 * (e - i))) := by
  intro n
  induction n with
  | zero => intro i h1 h2; omega
  | succ n ih =>
    intro i hi hn hf hhi
    obtain ⟨x, hx, _, _, _, _, hqx, _⟩ := read_view w s i
    obtain ⟨x1, hx1, _, hcx, _⟩ := read_view w s (i + 1)
    rw [← Nat.add_assoc] at hx1
    by_cases hq : (view kb t s i).quo = q
    · refine .inl ⟨i, Nat.le_refl _, hi, fun g h1 h2 => by rw [show g = i by omega]; exact hf, hhi, hq, ?_⟩
      rw [Tab.findC]
      refine ((runs_acc hx).bind (n' := 0) ?_).cast (by omega)
      rw [if_pos (by rw [hqx]; exact hq)]
      exact Runs.pure _
    · have key : ∀ y m, Runs (if isCont x1 then t.findC q n ((s + i + 1) % t.bucket) else pure ((s + i + 1) % t.bucket, false)) y m →
          Runs (t.findC q (n + 1) ((s + i) % t.bucket)) y (2 + m) := by
        intro y m h
        rw [Tab.findC]
        refine ((runs_acc hx).bind (n' := 1 + m) ?_).cast (by omega)
        rw [if_neg (by rw [hqx]; exact hq), succ_idx w]
        exact (runs_acc hx1).bind h
      rw [hcx, Nat.add_assoc] at key
      by_cases hc : (view kb t s (i + 1)).cont = true
      · rw [if_pos hc] at key
        have hiB : i + 1 < t.bucket := by
          by_contra hle
          have : i + 1 = 0 + t.bucket := by omega
          rw [this, view_per, L.cont0] at hc
          simp at hc
        obtain ⟨_, hf1, he⟩ := (L.cont i hiB).1 hc
        rcases ih (i + 1) hiB (by omega) hf1 (by omega) with ⟨p, h1, h2, h3, h4, h5, h6⟩ | ⟨e, h1, h2, h3, h4, h5⟩
        · refine .inl ⟨p, by omega, h2, ?_, h4, h5, (key _ _ h6).cast (by omega)⟩
          intro g g1 g2
          by_cases hgi : g = i
          · rw [hgi]; exact hf
          · exact h3 g (by omega) g2
        · refine .inr ⟨e, by omega, h2, ?_, h4, (key _ _ h5).cast (by omega)⟩
          intro p hp1 hp2
          by_cases hpi : p = i
          · rw [hpi]; exact ⟨hf, hhi, hq⟩
          · exact h3 p (by omega) hp2
      · rw [if_neg hc] at key
        refine .inr ⟨i + 1, by omega, by omega, ?_, ?_, (key _ _ (Runs.pure _)).cast (by omega)⟩
        · intro p hp1 hp2
          rw [show p = i by omega]
          exact ⟨hf, hhi, hq⟩
        · intro p hp hpf hip
          have hm := L.mono i p (by omega) hp hf hpf
          by_contra hle
          have hle2 := L.le i hi hf
          have hf1 : (view kb t s (i + 1)).fil := L.between p hp hpf (i + 1) (by omega) hip
          have hm1 := L.mono i (i + 1) (by omega) (by omega) hf hf1
          have hm2 := L.mono (i + 1) p hip hp hf1 hpf
          exact hc ((L.cont i (by omega)).2 ⟨hf, hf1, by omega⟩)

theorem find_counts (t : Tab) (q : Nat) : ∀ n i, Counts (t.findC q n i) (t.find q n i)
  | 0, _ => Counts.of (n := 0) fun _ => rfl
  | n + 1, i => by
    rw [Tab.findC, Tab.find]
    refine (Counts.acc _).bind fun w => ?_
    split
    · exact Counts.pure _
    · refine (Counts.acc _).bind fun w => ?_
      split
      · exact find_counts t q n _
      · exact Counts.pure _

theorem find_value {q n i : Nat} {r : Nat × Bool} {m : Nat} (h : Runs (t.findC q n i) r m) : t.find q n i = some r := (find_counts t q n i).value h

theorem nextNull_runs (w : WT kb vw t) {y : Nat} (hny : ¬ (view kb t s y).fil) : ∀ (d j n : Nat), j + d + 1 = y → d + 1 ≤ n →
    (∀ q, j < q → q < y → (view kb t s q).fil) → Runs (t.nextNullC n ((s + j) % t.bucket)) ((s + y) % t.bucket) (d + 1) := by
  intro d
  induction d with
  | zero =>
    intro j n hj hn _
    obtain ⟨n, rfl⟩ : ∃ m, n = m + 1 := ⟨n - 1, by omega⟩
    obtain ⟨x, hx, _, _, _, _, _, hz⟩ := read_view w s (j + 1)
    rw [Tab.nextNullC, succ_idx w, Nat.add_assoc]
    refine (runs_acc hx).bind (n' := 0) ?_
    rw [if_pos (hz.2 (by rw [show j + 1 = y by omega]; exact hny)), show j + 1 = y by omega]
    exact Runs.pure _
  | succ d ih =>
    intro j n hj hn hf
    obtain ⟨n, rfl⟩ : ∃ m, n = m + 1 := ⟨n - 1, by omega⟩
    obtain ⟨x, hx, _, _, _, _, _, hz⟩ := read_view w s (j + 1)
    rw [Tab.nextNullC, succ_idx w, Nat.add_assoc]
    refine ((runs_acc hx).bind (n' := d + 1) ?_).cast (by omega)
    rw [if_neg (fun h => hz.1 h (hf (j + 1) (by omega) (by omega)))]
    exact ih (j + 1) n (by omega) (by omega) (fun q h1 h2 => hf q (by omega) h2)

theorem shift_runs {e B : Nat} : ∀ (d n : Nat) (t t' : Tab), t.bucket = B → (∀ x, 0 < x → t.pred (x % B) = (x - 1) % B) → e + d + 1 < B →
    Tab.shift ((s + e) % B) n ((s + (e + d + 1)) % B) t = some t' → Runs (Tab.shiftC ((s + e) % B) n ((s + (e + d + 1)) % B) t) t' (5 * (d + 1)) := by
  intro d
  induction d with
  | zero =>
    intro n t t' hB hp hlt h
    cases n with
    | zero => simp [Tab.shift] at h
    | succ n =>
      have hpr : t.pred ((s + (e + 0 + 1)) % B) = (s + e) % B := hp _ (by omega)
      rw [Tab.shift, hpr] at h
      obtain ⟨a, ha, h⟩ := Option.bind_eq_some_iff.1 h
      obtain ⟨b, hb, h⟩ := Option.bind_eq_some_iff.1 h
      obtain ⟨arr, harr, h⟩ := Option.bind_eq_some_iff.1 h
      obtain ⟨vs, hvs, h⟩ := Option.bind_eq_some_iff.1 h
      obtain ⟨x, hx, hvs⟩ := Option.bind_eq_some_iff.1 hvs
      simp only [if_true] at h
      rw [Tab.shiftC, hpr]
      refine (runs_acc ha).bind (n' := 4) ((runs_acc hb).bind (n' := 3) ((runs_acc harr).bind (n' := 2) ((runs_acc hx).bind (n' := 1) ((runs_acc hvs).bind (n' := 0) ?_))))
      rw [if_pos rfl]
      exact (Option.some.inj h) ▸ Runs.pure _
  | succ d ih =>
    intro n t t' hB hp hlt h
    cases n with
    | zero => simp [Tab.shift] at h
    | succ n =>
      have hpr : t.pred ((s + (e + (d + 1) + 1)) % B) = (s + (e + d + 1)) % B := hp _ (by omega)
      have hne : ¬ (s + e) % B = (s + (e + d + 1)) % B := fun h => by
        have := idx_inj (by omega) (by omega) h
        omega
      rw [Tab.shift, hpr] at h
      obtain ⟨a, ha, h⟩ := Option.bind_eq_some_iff.1 h
      obtain ⟨b, hb, h⟩ := Option.bind_eq_some_iff.1 h
      obtain ⟨arr, harr, h⟩ := Option.bind_eq_some_iff.1 h
      obtain ⟨vs, hvs, h⟩ := Option.bind_eq_some_iff.1 h
      obtain ⟨x, hx, hvs⟩ := Option.bind_eq_some_iff.1 hvs
      simp only [if_neg hne] at h
      rw [Tab.shiftC, hpr]
      refine ((runs_acc ha).bind (n' := 4 + 5 * (d + 1)) ((runs_acc hb).bind (n' := 3 + 5 * (d + 1)) ((runs_acc harr).bind (n' := 2 + 5 * (d + 1))
        ((runs_acc hx).bind (n' := 1 + 5 * (d + 1)) ((runs_acc hvs).bind (n' := 5 * (d + 1)) ?_) |>.cast (by omega)) |>.cast (by omega)) |>.cast (by omega))).cast (by omega)
      rw [if_neg hne]
      exact ih n _ t' hB hp (by omega) h

theorem makeRoom_runs (w : WT kb vw t) {e y : Nat} (hey : e ≤ y) (hy : y < t.bucket) (hny : ¬ (view kb t s y).fil) (hfe : ∀ q, e ≤ q → q < y → (view kb t s q).fil)
    {t' : Tab} (h : t.makeRoom ((s + e) % t.bucket) = some t') : Runs (t.makeRoomC ((s + e) % t.bucket)) t' (1 + 6 * (y - e)) := by
  obtain ⟨x, hx, _, _, _, _, _, hz⟩ := read_view w s e
  unfold Tab.makeRoom at h
  unfold Tab.makeRoomC
  simp only [hx, Option.bind_eq_bind, Option.bind_some, Option.pure_def] at h
  refine (runs_acc hx).bind ?_
  by_cases he : e = y
  · have hn := hz.2 (he ▸ hny)
    rw [if_pos hn] at h ⊢
    rw [he, Nat.sub_self]
    exact (Option.some.inj h) ▸ Runs.pure _
  · have hn : ¬ isNull x = true := fun hn => hz.1 hn (hfe e (Nat.le_refl _) (by omega))
    rw [if_neg hn] at h ⊢
    have hall : ∀ q, e < q → q < y → (view kb t s q).fil := fun q h1 h2 => hfe q (by omega) h2
    rw [nextNull_spec w hny (y - e - 1) e t.bucket (by omega) (by omega) hall, Option.bind_some] at h
    have h1 := nextNull_runs w hny (y - e - 1) e t.bucket (by omega) (by omega) hall
    obtain ⟨d, rfl⟩ : ∃ d, y = e + d + 1 := ⟨y - e - 1, by omega⟩
    have h2 := shift_runs d t.bucket t t' rfl (pred_idx w) hy h
    exact (h1.bind h2).cast (by omega)

theorem mark_runs {h i q : Nat} {t' : Tab} (e : t.mark h i q = some t') : ∃ n, n ≤ 5 ∧ Runs (t.markC h i q) t' n := by
  obtain ⟨x, hx, e⟩ := Option.bind_eq_some_iff.1 e
  unfold Tab.markC
  by_cases ho : isOcc x = true
  · rw [if_pos ho] at e
    obtain ⟨a, ha, e⟩ := Option.bind_eq_some_iff.1 e
    obtain ⟨r, hr, e⟩ := Option.bind_eq_some_iff.1 e
    refine ⟨_, ?_, (runs_acc hx).bind (n' := 2) ?_⟩
    · omega
    · rw [if_pos ho]
      exact (runs_acc ha).bind (n' := 1) ((runs_acc hr).bind (n' := 0) ((Option.some.inj e) ▸ Runs.pure _))
  · rw [if_neg ho] at e
    obtain ⟨r, hr, e⟩ := Option.bind_eq_some_iff.1 e
    obtain ⟨a, ha, e⟩ := Option.bind_eq_some_iff.1 e
    obtain ⟨r', hr', e⟩ := Option.bind_eq_some_iff.1 e
    refine ⟨_, ?_, (runs_acc hx).bind (n' := 4) ?_⟩
    · omega
    · rw [if_neg ho]
      exact (runs_acc hx).bind (n' := 3) ((runs_acc hr).bind (n' := 2) ((runs_acc ha).bind (n' := 1) ((runs_acc hr').bind (n' := 0) ((Option.some.inj e) ▸ Runs.pure _))))

theorem insert_runs (w : WT kb vw t) {h e y q v : Nat} (hey : e ≤ y) (hy : y < t.bucket) (hny : ¬ (view kb t s y).fil) (hfe : ∀ q, e ≤ q → q < y → (view kb t s q).fil)
    {t' : Tab} (eq : t.insert h ((s + e) % t.bucket) q v = some t') : ∃ n, n ≤ 7 + 6 * (y - e) ∧ Runs (t.insertC h ((s + e) % t.bucket) q v) t' n := by
  obtain ⟨t1, e1, eq⟩ := Option.bind_eq_some_iff.1 eq
  obtain ⟨t2, e2, eq⟩ := Option.bind_eq_some_iff.1 eq
  obtain ⟨r, hr, eq⟩ := Option.bind_eq_some_iff.1 eq
  obtain ⟨n, hn, h2⟩ := mark_runs e2
  refine ⟨1 + 6 * (y - e) + (n + (1 + 0)), by omega, ?_⟩
  exact (makeRoom_runs w hey hy hny hfe e1).bind (h2.bind ((runs_acc hr).bind ((Option.some.inj eq) ▸ Runs.pure _)))

theorem assign_runs {i v : Nat} {t' : Tab} (e : t.assign i v = some t') : ∃ n, n ≤ 4 ∧ Runs (t.assignC i v) t' n := by
  obtain ⟨x, hx, e⟩ := Option.bind_eq_some_iff.1 e
  unfold Tab.assignC
  by_cases hd : isDel x = true
  · simp only [if_pos hd, Option.pure_def, Option.bind_eq_bind, Option.bind_some] at e
    obtain ⟨a, ha, e⟩ := Option.bind_eq_some_iff.1 e
    obtain ⟨r, hr, e⟩ := Option.bind_eq_some_iff.1 e
    refine ⟨_, ?_, (runs_acc hx).bind (n' := 3) ?_⟩
    · omega
    · rw [if_pos hd]
      exact (runs_acc hx).bind (n' := 2) ((runs_acc ha).bind (n' := 1) ((runs_acc hr).bind (n' := 0) ((Option.some.inj e) ▸ Runs.pure _)))
  · simp only [if_neg hd, Option.pure_def, Option.bind_eq_bind, Option.bind_some] at e
    obtain ⟨r, hr, e⟩ := Option.bind_eq_some_iff.1 e
    refine ⟨_, ?_, (runs_acc hx).bind (n' := 1) ?_⟩
    · omega
    · rw [if_neg hd]
      exact (runs_acc hr).bind (n' := 0) ((Option.some.inj e) ▸ Runs.pure _)

end Verif.CHT

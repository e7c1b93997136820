/-
The functions of InitializableArray.hpp once more, this time counting the accesses to array cells, and the proofs that
they return what the functions of `Model.lean` return.
-/
import Verif.IArr.Model

namespace Verif.IArr

/-- A computation that may fault and counts accesses to array cells (a device of the model, no counterpart in
InitializableArray.hpp). -/
abbrev M (β : Type) := StateT Nat Option β

/-- One access to a cell (every `fv_[..]`, `t_[..]`, `a_[..]`, `push_back` and `memcpy` of InitializableArray.hpp is
one); `r` is its outcome, a fault outside of the array. -/
def acc {β : Type} (r : Option β) : M β := fun c => r.map fun x => (x, c + 1)

variable {α : Type}

/-! ### The folklore variant -/

/-- `_is_chained`, InitializableArray.hpp:57-60. -/
def Folk.isChainedC (a : Folk α) (i : Nat) : M Bool := do
  let e ← acc a.fv[i]?
  if e.1 < a.t.length then do
    let x ← acc a.t[e.1]?
    pure (x == i)
  else pure false

/-- `get`, InitializableArray.hpp:32-34. -/
def Folk.getC (a : Folk α) (i : Nat) : M α := do
  let c ← a.isChainedC i
  if c then do
    let e ← acc a.fv[i]?
    pure e.2
  else pure a.init

/-- The assignment to `fv_[index].first`, InitializableArray.hpp:38; the other component stays. -/
def Folk.putFirst (a : Folk α) (i : Nat) (f : Nat) : Option (Folk α) := do
  let e ← a.fv[i]?
  let fv ← wr a.fv i (f, e.2)
  pure { a with fv := fv }

/-- The assignment to `fv_[index].second`, InitializableArray.hpp:41; the other component stays. -/
def Folk.putSecond (a : Folk α) (i : Nat) (v : α) : Option (Folk α) := do
  let e ← a.fv[i]?
  let fv ← wr a.fv i (e.1, v)
  pure { a with fv := fv }

/-- `set`, InitializableArray.hpp:36-42. -/
def Folk.setC (a : Folk α) (i : Nat) (val : α) : M (Folk α) := do
  let c ← a.isChainedC i
  let a ← if c then pure a else do
    let a ← acc (a.putFirst i a.t.length)
    acc (some { a with t := a.t ++ [i] })
  acc (a.putSecond i val)

/-- `init` and `fill`, InitializableArray.hpp:45-52: no cell is accessed; `t_.clear()` has nothing to destroy. -/
def Folk.fillC (a : Folk α) (v : α) : M (Folk α) := pure { a with init := v, t := [] }

/-! ### The in-place variant -/

/-- `_to`, InitializableArray.hpp:175-179. -/
def Arr.toC (s : Arr) (i : Nat) : M Nat := acc s.a[i]?

/-- `_set_to`, InitializableArray.hpp:181-183. -/
def Arr.setToC (w : Nat) (s : Arr) (i b : Nat) : M Arr := acc (s.setTo w i b)

/-- `a_[i] = val`, for example InitializableArray.hpp:111. -/
def Arr.putC (s : Arr) (i v : Nat) : M Arr := acc (s.put i v)

/-- `_chained_to`, InitializableArray.hpp:185-192. -/
def Arr.chainedToC (n : Nat) (s : Arr) (b : Nat) : M (Option Nat) := do
  let k2 ← s.toC (2 * b)
  if k2 < 2 * n then
    if k2 % 2 = 0 then do
      let x ← s.toC k2
      if x = 2 * b ∧ ((b < s.b ∧ s.b ≤ k2 / 2) ∨ (k2 / 2 < s.b ∧ s.b ≤ b)) then pure (some (k2 / 2)) else pure none
    else pure none
  else pure none

/-- `_make_chain`, InitializableArray.hpp:194-198. -/
def Arr.makeChainC (w : Nat) (s : Arr) (i j : Nat) : M Arr := do
  let s ← s.setToC w (2 * i) (2 * j)
  s.setToC w (2 * j) (2 * i)

/-- `_break_chain`, InitializableArray.hpp:200-205. -/
def Arr.breakChainC (w n : Nat) (s : Arr) (b : Nat) : M Arr := do
  match ← s.chainedToC n b with
  | some k => s.setToC w (2 * k) (2 * k)
  | none => pure s

/-- `_init_block`, InitializableArray.hpp:207-209. -/
def Arr.initBlockC (s : Arr) (b : Nat) : M Arr := do
  let s ← s.putC (2 * b + 1) s.init
  s.putC (2 * b) s.init

/-- `_extend`, InitializableArray.hpp:211-224. -/
def Arr.extendC (w n : Nat) (s : Arr) : M (Arr × Nat) := do
  let c ← s.chainedToC n s.b
  let s := { s with b := s.b + 1 }
  let (s, k) ← match c with
    | none => pure (s, s.b - 1)
    | some k => do
      let x ← acc s.a[2 * k + 1]?
      let s ← s.putC (2 * (s.b - 1)) x
      let s ← s.breakChainC w n (s.b - 1)
      pure (s, k)
  let s ← s.initBlockC k
  let s ← s.breakChainC w n k
  pure (s, k)

/-- `get`, InitializableArray.hpp:93-105. -/
def Arr.getC (n : Nat) (s : Arr) (i : Nat) : M Nat := do
  let c ← s.chainedToC n (i / 2)
  if i < 2 * s.b then
    match c with
    | some _ => pure s.init
    | none => acc s.a[i]?
  else
    match c with
    | some _ =>
      if i % 2 = 0 then do
        let x ← acc s.a[i]?
        acc s.a[x + 1]?
      else acc s.a[i]?
    | none => pure s.init

/-- `write_uca`, InitializableArray.hpp:110-113. -/
def Arr.writeUcaC (w n : Nat) (s : Arr) (i v : Nat) : M Arr := do
  let s ← s.putC i v
  s.breakChainC w n (i / 2)

/-- `write_wca`, InitializableArray.hpp:130-135. -/
def Arr.writeWcaC (s : Arr) (i k v : Nat) : M Arr :=
  if i % 2 = 0 then s.putC (2 * k + 1) v else s.putC i v

/-- `set`, InitializableArray.hpp:107-149. -/
def Arr.setC (w n : Nat) (s : Arr) (i v : Nat) : M Arr := do
  let b := i / 2
  let c ← s.chainedToC n b
  if b < s.b then
    match c with
    | none => s.writeUcaC w n i v
    | some k => do
      let (s, j) ← s.extendC w n
      if b = j then s.writeUcaC w n i v
      else do
        let x ← acc s.a[2 * b]?
        let s ← s.putC (2 * j) x
        let y ← acc s.a[2 * b + 1]?
        let s ← s.putC (2 * j + 1) y
        let s ← s.makeChainC w j k
        let s ← s.initBlockC b
        s.writeUcaC w n i v
  else
    match c with
    | some k => s.writeWcaC i k v
    | none => do
      let (s, k) ← s.extendC w n
      if b = k then s.writeUcaC w n i v
      else do
        let s ← s.initBlockC b
        let s ← s.makeChainC w k b
        s.writeWcaC i k v

/-- `init` and `fill`, InitializableArray.hpp:151-158: no cell is accessed. -/
def Arr.fillC (s : Arr) (v : Nat) : M Arr := pure { s with b := 0, init := v }

/-! ### Same results, and bounds on the counts -/

/-- `m` returns what `p` is and makes at most `K` accesses. -/
def Costs {β : Type} (m : M β) (p : Option β) (K : Nat) : Prop :=
  ∀ c, (m c).map Prod.fst = p ∧ ∀ r, m c = some r → r.2 ≤ c + K

variable {β γ : Type}

theorem Costs.acc (r : Option β) : Costs (acc r) r 1 := by
  intro c
  cases r <;> simp [IArr.acc]

theorem Costs.pure (x : β) : Costs (pure x : M β) (some x) 0 := by
  intro c
  exact ⟨rfl, fun r h => by cases h; exact Nat.le_refl _⟩

theorem Costs.mono {m : M β} {p : Option β} {K K' : Nat} (h : Costs m p K) (hk : K ≤ K') : Costs m p K' := fun c =>
  ⟨(h c).1, fun r hr => Nat.le_trans ((h c).2 r hr) (by omega)⟩

theorem Costs.bind {m : M β} {p : Option β} {K : Nat} {f : β → M γ} {g : β → Option γ} {K' : Nat} (h : Costs m p K)
    (hf : ∀ a, Costs (f a) (g a) K') : Costs (m >>= f) (p >>= g) (K + K') := by
  intro c
  obtain ⟨h1, h2⟩ := h c
  have e : (m >>= f) c = (m c).bind fun r => f r.1 r.2 := rfl
  rw [e]
  cases hm : m c with
  | none => rw [hm] at h1; cases h1; exact ⟨rfl, by simp⟩
  | some r =>
    rw [hm] at h1
    cases h1
    refine ⟨(hf r.1 r.2).1, fun x hx => ?_⟩
    have := (hf r.1 r.2).2 x hx
    have := h2 r hm
    omega

theorem isChained_costs (a : Folk α) (i : Nat) : Costs (a.isChainedC i) (a.isChained i) 2 := by
  refine Costs.bind (K := 1) (K' := 1) (Costs.acc _) fun e => ?_
  split
  · exact Costs.bind (K' := 0) (Costs.acc _) fun x => Costs.pure _
  · exact (Costs.pure _).mono (by omega)

theorem folk_get_costs (a : Folk α) (i : Nat) : Costs (a.getC i) (a.get i) 3 := by
  refine Costs.bind (K := 2) (K' := 1) (isChained_costs a i) fun c => ?_
  split
  · exact Costs.bind (K' := 0) (Costs.acc _) fun x => Costs.pure _
  · exact (Costs.pure _).mono (by omega)

theorem folk_set_costs (a : Folk α) (i : Nat) (v : α) : Costs (a.setC i v) (a.set i v) 5 := by
  refine Costs.bind (K := 2) (K' := 3) (isChained_costs a i) fun c => ?_
  try dsimp only
  have h2 : ∀ a : Folk α, Costs (acc (a.putSecond i v)) (a.putSecond i v) 1 := fun a => Costs.acc _
  cases c with
  | true => exact (h2 a).mono (by omega)
  | false =>
    have h1 : Costs (do let a ← acc (a.putFirst i a.t.length); acc (some { a with t := a.t ++ [i] }))
        (do let e ← a.fv[i]?
            let fv ← wr a.fv i (a.t.length, e.2)
            pure { a with fv := fv, t := a.t ++ [i] }) 2 := by
      have := Costs.bind (Costs.acc (a.putFirst i a.t.length)) (fun a : Folk α => Costs.acc (some { a with t := a.t ++ [i] }))
      have e : ((a.putFirst i a.t.length) >>= fun a => some { a with t := a.t ++ [i] }) = (do
            let e ← a.fv[i]?
            let fv ← wr a.fv i (a.t.length, e.2)
            pure { a with fv := fv, t := a.t ++ [i] }) := by
        simp only [Folk.putFirst, bind_assoc]
        rfl
      rw [← e]
      exact this
    simpa [bind_assoc, Option.bind_assoc, Folk.putSecond] using Costs.bind h1 h2

theorem chainedTo_costs (n : Nat) (s : Arr) (b : Nat) : Costs (s.chainedToC n b) (s.chainedTo n b) 2 := by
  refine Costs.bind (K := 1) (K' := 1) (Costs.acc _) fun k2 => ?_
  split
  · split
    · refine Costs.bind (K := 1) (K' := 0) (Costs.acc _) fun x => ?_
      try dsimp only
      split <;> exact Costs.pure _
    · exact (Costs.pure _).mono (by omega)
  · exact (Costs.pure _).mono (by omega)

theorem makeChain_costs (w : Nat) (s : Arr) (i j : Nat) : Costs (s.makeChainC w i j) (s.makeChain w i j) 2 :=
  Costs.bind (K := 1) (K' := 1) (Costs.acc _) fun _ => Costs.acc _

theorem breakChain_costs (w n : Nat) (s : Arr) (b : Nat) : Costs (s.breakChainC w n b) (s.breakChain w n b) 3 := by
  refine Costs.bind (K := 2) (K' := 1) (chainedTo_costs n s b) fun c => ?_
  cases c with
  | none => exact (Costs.pure _).mono (by omega)
  | some k => exact Costs.acc _

theorem initBlock_costs (s : Arr) (b : Nat) : Costs (s.initBlockC b) (s.initBlock b) 2 :=
  Costs.bind (K := 1) (K' := 1) (Costs.acc _) fun _ => Costs.acc _

theorem extend_costs (w n : Nat) (s : Arr) : Costs (s.extendC w n) (s.extend w n) 12 := by
  refine Costs.bind (K := 2) (K' := 10) (chainedTo_costs n s s.b) fun c => ?_
  have tail : ∀ p : Arr × Nat, Costs (do let s ← p.1.initBlockC p.2; let s ← s.breakChainC w n p.2; pure (s, p.2))
      (do let s ← p.1.initBlock p.2; let s ← s.breakChain w n p.2; pure (s, p.2)) 5 := fun p =>
    Costs.bind (K := 2) (K' := 3) (initBlock_costs _ _) fun s =>
      Costs.bind (K := 3) (K' := 0) (breakChain_costs w n s _) fun _ => Costs.pure _
  cases c with
  | none => exact (tail (_, _)).mono (by omega)
  | some k =>
    exact Costs.bind (K := 1) (K' := 9) (Costs.acc _) fun x => Costs.bind (K := 1) (K' := 8) (Costs.acc _) fun s =>
      Costs.bind (K := 3) (K' := 5) (breakChain_costs w n s _) fun s => tail (s, k)

theorem get_costs (n : Nat) (s : Arr) (i : Nat) : Costs (s.getC n i) (s.get n i) 4 := by
  refine Costs.bind (K := 2) (K' := 2) (chainedTo_costs n s _) fun c => ?_
  try dsimp only
  split
  · cases c with
    | none => exact (Costs.acc _).mono (by omega)
    | some k => exact (Costs.pure _).mono (by omega)
  · cases c with
    | none => exact (Costs.pure _).mono (by omega)
    | some k =>
      try dsimp only
      split
      · exact Costs.bind (K := 1) (K' := 1) (Costs.acc _) fun x => Costs.acc _
      · exact (Costs.acc _).mono (by omega)

theorem writeUca_costs (w n : Nat) (s : Arr) (i v : Nat) : Costs (s.writeUcaC w n i v) (s.writeUca w n i v) 4 :=
  Costs.bind (K := 1) (K' := 3) (Costs.acc _) fun _ => breakChain_costs w n _ _

theorem writeWca_costs (s : Arr) (i k v : Nat) : Costs (s.writeWcaC i k v) (s.writeWca i k v) 1 := by
  unfold Arr.writeWcaC Arr.writeWca
  split <;> exact Costs.acc _

theorem set_costs (w n : Nat) (s : Arr) (i v : Nat) : Costs (s.setC w n i v) (s.set w n i v) 26 := by
  refine Costs.bind (K := 2) (K' := 24) (chainedTo_costs n s _) fun c => ?_
  try dsimp only
  split
  · cases c with
    | none => exact (writeUca_costs w n s i v).mono (by omega)
    | some k =>
      refine Costs.bind (K := 12) (K' := 12) (extend_costs w n s) fun p => ?_
      obtain ⟨s, j⟩ := p
      try dsimp only
      split
      · exact (writeUca_costs w n s i v).mono (by omega)
      · exact Costs.bind (K := 1) (K' := 11) (Costs.acc _) fun x => Costs.bind (K := 1) (K' := 10) (Costs.acc _) fun s =>
          Costs.bind (K := 1) (K' := 9) (Costs.acc _) fun y => Costs.bind (K := 1) (K' := 8) (Costs.acc _) fun s =>
          Costs.bind (K := 2) (K' := 6) (makeChain_costs w s _ _) fun s =>
          Costs.bind (K := 2) (K' := 4) (initBlock_costs s _) fun s => writeUca_costs w n s i v
  · cases c with
    | some k => exact (writeWca_costs s i k v).mono (by omega)
    | none =>
      refine Costs.bind (K := 12) (K' := 12) (extend_costs w n s) fun p => ?_
      obtain ⟨s, k⟩ := p
      try dsimp only
      split
      · exact (writeUca_costs w n s i v).mono (by omega)
      · exact (Costs.bind (K := 2) (K' := 3) (initBlock_costs s _) fun s =>
          Costs.bind (K := 2) (K' := 1) (makeChain_costs w s _ _) fun s => writeWca_costs s i k v).mono (by omega)

end Verif.IArr

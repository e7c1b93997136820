/-
The construction with the loop over the characters restricted to given characters, for the evaluation of a large example.
-/
import Verif.Samc.Access

namespace Verif.Samc
open Verif.BV Verif.Serial

/-- The steps of `charLoop` (Samc.hpp:171-201) for the characters `cs` only. -/
def charSteps (W : Nat) (legacy : Bool) (h0 h1 : Nat) (es : List (Byte × Nat × List Key)) : List Nat → Lv → Option Lv
  | [], s => some s
  | c :: cs, s => do
    let s ← charStep W legacy h0 h1 es c s
    charSteps W legacy h0 h1 es cs s

theorem charStep_none {W : Nat} {legacy : Bool} {h0 h1 : Nat} {es : List (Byte × Nat × List Key)} {c : Nat} (h : ∀ e ∈ es, e.1.toNat ≠ c) (s : Lv) :
    charStep W legacy h0 h1 es c s = some s := by
  have : es.filter (fun e => e.1.toNat = c) = [] := by
    rw [List.filter_eq_nil_iff]
    intro e he
    simpa using h e he
  simp only [charStep, this, List.map_nil, if_true]

theorem charLoop_steps (W : Nat) (legacy : Bool) (h0 h1 : Nat) (es : List (Byte × Nat × List Key)) : ∀ (n c : Nat) (cs : List Nat) (s : Lv),
    cs.Pairwise (· < ·) → (∀ x ∈ cs, c ≤ x ∧ x < c + n) → (∀ e ∈ es, c ≤ e.1.toNat → e.1.toNat ∈ cs) →
    charLoop W legacy h0 h1 es n c s = charSteps W legacy h0 h1 es cs s
  | 0, c, [], s, _, _, _ => rfl
  | 0, c, x :: cs, s, _, h, _ => by
    have := h x (by simp)
    omega
  | n + 1, c, [], s, hp, h, he => by
    have hn : ∀ e ∈ es, e.1.toNat ≠ c := fun e hm hc => by simpa using he e hm (Nat.le_of_eq hc.symm)
    simp only [charLoop, charStep_none hn s, Option.bind_eq_bind, Option.bind_some]
    exact charLoop_steps W legacy h0 h1 es n (c + 1) [] s hp (by simp) (fun e hm hc => he e hm (by omega))
  | n + 1, c, x :: cs, s, hp, h, he => by
    have hx := h x (by simp)
    rw [List.pairwise_cons] at hp
    rcases Nat.lt_or_ge c x with hlt | hge
    · simp only [charLoop, Option.bind_eq_bind]
      rw [charStep_none (fun e hm hc => by
        have := he e hm (by omega)
        rw [hc, List.mem_cons] at this
        rcases this with rfl | hmem
        · omega
        · have := hp.1 _ hmem
          omega) s, Option.bind_some]
      refine charLoop_steps W legacy h0 h1 es n (c + 1) (x :: cs) s (List.pairwise_cons.2 hp) ?_ (fun e hm hc => he e hm (by omega))
      intro y hy
      have h1 := h y hy
      rw [List.mem_cons] at hy
      rcases hy with rfl | hy
      · omega
      · have := hp.1 _ hy
        omega
    · obtain rfl : x = c := by omega
      simp only [charLoop, charSteps, Option.bind_eq_bind]
      cases charStep W legacy h0 h1 es x s with
      | none => rfl
      | some s' =>
        simp only [Option.bind_some]
        refine charLoop_steps W legacy h0 h1 es n (x + 1) cs s' hp.2 ?_ ?_
        · intro y hy
          have h1 := h y (by simp [hy])
          have := hp.1 _ hy
          omega
        · intro e hm hc
          have := he e hm (by omega)
          rw [List.mem_cons] at this
          rcases this with h2 | h2
          · omega
          · exact h2

/-- `level` (Samc.hpp:152-208) for labels in `cs`. -/
def fastLevel (W : Nat) (legacy : Bool) (cs : List Nat) (d : Nat) (s : St) : Option St := do
  let h0 ← s.head[d]?
  let h1 ← s.head[d + 1]?
  let es ← collect d h0 s.queue
  if es.all (fun e => cs.elem e.1.toNat) then do
    let l ← charSteps W legacy h0 h1 es cs ⟨BV.empty, 0, List.replicate 256 0, s.map, []⟩
    pure ⟨l.map, l.queue, s.code ++ [l.codes], s.head ++ [(h1 + l.mh) % 2 ^ W]⟩
  else none

theorem fastLevel_eq {W : Nat} {legacy : Bool} {cs : List Nat} {d : Nat} {s s' : St} (hp : cs.Pairwise (· < ·)) (hc : ∀ x ∈ cs, x < 256)
    (h : fastLevel W legacy cs d s = some s') : level W legacy d s = some s' := by
  simp only [fastLevel, Option.bind_eq_bind, Option.bind_eq_some_iff] at h
  obtain ⟨h0, e0, h1, e1, es, e2, h⟩ := h
  split at h
  · rename_i hall
    rw [List.all_eq_true] at hall
    simp only [level, e0, e1, e2, Option.bind_eq_bind, Option.bind_some]
    rw [charLoop_steps W legacy h0 h1 es 256 0 cs _ hp (fun x hx => ⟨by omega, by have := hc x hx; omega⟩) (fun e he _ => by simpa using hall e he)]
    exact h
  · simp at h

/-- `levels` (Samc.hpp:145-209), with the labels of each level. -/
def fastLevels (W : Nat) (legacy : Bool) : List (List Nat) → (d : Nat) → St → Option St
  | [], _, s => if s.queue = [] then some s else none
  | cs :: css, d, s =>
    if s.queue = [] then none
    else do
      let s ← fastLevel W legacy cs d s
      fastLevels W legacy css (d + 1) s

theorem fastLevels_eq {W : Nat} {legacy : Bool} : ∀ {css : List (List Nat)} {n d : Nat} {s s' : St}, (∀ cs ∈ css, cs.Pairwise (· < ·) ∧ ∀ x ∈ cs, x < 256) →
    css.length < n → fastLevels W legacy css d s = some s' → levels W legacy n d s = some s'
  | [], n + 1, d, s, s', _, _, h => by
    simp only [fastLevels] at h
    split at h
    · rename_i hq
      simp only [levels, if_pos hq]
      exact h
    · simp at h
  | cs :: css, n + 1, d, s, s', hc, hn, h => by
    simp only [fastLevels] at h
    split at h
    · simp at h
    · rename_i hq
      rw [Option.bind_eq_bind, Option.bind_eq_some_iff] at h
      obtain ⟨s1, e1, e2⟩ := h
      have h1 := hc cs (by simp)
      simp only [levels, if_neg hq, fastLevel_eq h1.1 h1.2 e1, Option.bind_eq_bind, Option.bind_some]
      exact fastLevels_eq (fun x hx => hc x (by simp [hx])) (by simpa using hn) e2

end Verif.Samc

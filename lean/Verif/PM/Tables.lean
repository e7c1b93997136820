/-
The public tables of the matchers and facts about how they are filled.
-/
import Verif.PM.Kmp
import Verif.PM.Sunday

namespace Verif.PM

/-- `Kmp::next`, PatternMatching.hpp:88: the signed entry is returned as a `size_t`. -/
def kmpNext (key : List Byte) (pos : Nat) : Option (BitVec 64) := do
  let t ← kmpBuild key
  let p ← t[pos]?
  pure (BitVec.ofInt 64 p)

/-- `Bm::skip`, PatternMatching.hpp:123. -/
def bmSkip (key : List Byte) (type : Byte) : Option Nat := do
  let t ← bmBuild key
  t[type.toNat]?

/-- `Sunday::ordered_pattern`, PatternMatching.hpp:272, read through the pointer. -/
def orderedPattern (key : List Byte) (num : Nat) : Option (Nat × Byte) := do
  let p ← pattern key
  p[num]?

/-- `SundayQS::delta1`, PatternMatching.hpp:291. -/
def delta1 (key : List Byte) (type : Byte) : Option Nat := do
  let t ← qsBuild key
  t[type.toNat]?

/-- `SundayMS::delta2`, PatternMatching.hpp:363, with the constructors at 284-289 and 329-361. -/
def delta2 (key : List Byte) (pos : Nat) : Option Nat := do
  let p ← pattern key
  let _ ← qsBuild key
  let t ← msBuild key p
  t[pos]?

/-! ### Borders -/

theorem Bd_iff (key : List Byte) (p k : Nat) (hp : p ≤ key.length) :
    Bd (fun j => key[j]?) p k ↔ (k < p ∧ key.take k <:+ key.take p) := by
  constructor
  · rintro ⟨h1, h2⟩
    refine ⟨h1, ?_⟩
    rw [List.suffix_iff_eq_drop]
    have e : (key.take p).length - (key.take k).length = p - k := by simp; omega
    rw [e]
    apply List.ext_getElem?
    intro t
    rw [List.getElem?_drop, List.getElem?_take, List.getElem?_take]
    by_cases ht : t < k
    · rw [if_pos ht, if_pos (by omega)]; exact h2 t ht
    · rw [if_neg ht, if_neg (by omega)]
  · rintro ⟨h1, h2⟩
    refine ⟨h1, fun t ht => ?_⟩
    rw [List.suffix_iff_eq_drop] at h2
    have e : (key.take p).length - (key.take k).length = p - k := by simp; omega
    rw [e] at h2
    have := congrArg (fun l => l[t]?) h2
    simp only [List.getElem?_drop, List.getElem?_take] at this
    rw [if_pos ht, if_pos (by omega)] at this
    exact this

/-! ### Entries of the shift tables come from the key -/

theorem bmBuildLoop_val (key : List Byte) : ∀ (m i : Nat) (skip s : List Nat), key.length - i ≤ m → bmBuildLoop key i skip = some s →
    ∀ x d, s[x]? = some d → skip[x]? = some d ∨ ∃ j c, j + 1 < key.length ∧ key[j]? = some c ∧ c.toNat = x ∧ d = key.length - j - 1 := by
  intro m
  induction m with
  | zero =>
    intro i skip s hm e x d hx
    unfold bmBuildLoop at e
    rw [dif_neg (by omega)] at e
    rw [Option.some.inj e]; exact .inl hx
  | succ m ih =>
    intro i skip s hm e x d hx
    unfold bmBuildLoop at e
    by_cases hi : i < key.length - 1
    · rw [dif_pos hi] at e
      cases hk : key[i]? with
      | none => simp [hk] at e
      | some c =>
        simp only [hk, Option.bind_eq_bind, Option.bind_some] at e
        by_cases hc : c.toNat < 128
        · rw [charIndex_some c hc, Option.bind_some] at e
          cases hw : wr skip c.toNat (key.length - i - 1) with
          | none => simp [hw] at e
          | some sk =>
            simp only [hw, Option.bind_some] at e
            rcases ih (i + 1) sk s (by omega) e x d hx with h | h
            · have hsk : sk = skip.set c.toNat (key.length - i - 1) := by
                unfold wr at hw
                split at hw
                · exact (Option.some.inj hw).symm
                · cases hw
              rw [hsk, List.getElem?_set] at h
              by_cases hxe : c.toNat = x
              · right
                refine ⟨i, c, by omega, hk, hxe, ?_⟩
                rw [if_pos hxe] at h
                split at h
                · exact (Option.some.inj h).symm
                · cases h
              · rw [if_neg hxe] at h; exact .inl h
            · exact .inr h
        · unfold charIndex at e
          rw [if_neg hc] at e
          cases e
    · rw [dif_neg hi] at e
      rw [Option.some.inj e]; exact .inl hx

theorem qsBuildLoop_val (key : List Byte) : ∀ (m i : Nat) (td s : List Nat), key.length - i ≤ m → qsBuildLoop key i td = some s →
    ∀ x d, s[x]? = some d → td[x]? = some d ∨ ∃ j c, key[j]? = some c ∧ c.toNat = x ∧ d = key.length - j := by
  intro m
  induction m with
  | zero =>
    intro i td s hm e x d hx
    unfold qsBuildLoop at e
    rw [dif_neg (by omega)] at e
    rw [Option.some.inj e]; exact .inl hx
  | succ m ih =>
    intro i td s hm e x d hx
    unfold qsBuildLoop at e
    by_cases hi : i < key.length
    · rw [dif_pos hi] at e
      cases hk : key[i]? with
      | none => simp [hk] at e
      | some c =>
        simp only [hk, Option.bind_eq_bind, Option.bind_some] at e
        by_cases hc : c.toNat < 128
        · rw [charIndex_some c hc, Option.bind_some] at e
          cases hw : wr td c.toNat (key.length - i) with
          | none => simp [hw] at e
          | some sk =>
            simp only [hw, Option.bind_some] at e
            rcases ih (i + 1) sk s (by omega) e x d hx with h | h
            · have hsk : sk = td.set c.toNat (key.length - i) := by
                unfold wr at hw
                split at hw
                · exact (Option.some.inj hw).symm
                · cases hw
              rw [hsk, List.getElem?_set] at h
              by_cases hxe : c.toNat = x
              · right
                refine ⟨i, c, hk, hxe, ?_⟩
                rw [if_pos hxe] at h
                split at h
                · exact (Option.some.inj h).symm
                · cases h
              · rw [if_neg hxe] at h; exact .inl h
            · exact .inr h
        · unfold charIndex at e
          rw [if_neg hc] at e
          cases e
    · rw [dif_neg hi] at e
      rw [Option.some.inj e]; exact .inl hx

/-! ### The order of the pattern -/

/-- `d` is the distance from position `i` of the key to the last equal character before it, and `i + 1` if there is none. -/
def PrevDist (key : List Byte) (i d : Nat) : Prop :=
  1 ≤ d ∧ (d = i + 1 ∨ (d ≤ i ∧ key[i - d]? = key[i]?)) ∧ ∀ e, 1 ≤ e → e < d → key[i - e]? ≠ key[i]?

theorem minShiftLoop_spec (key : List Byte) (i : Nat) (hi : i < key.length) : ∀ j, j ≤ i →
    (∀ t, j ≤ t → t < i → key[t]? ≠ key[i]?) → ∃ d, minShiftLoop key i j = some d ∧ PrevDist key i d := by
  intro j
  induction j with
  | zero =>
    intro _ h
    exact ⟨i + 1, rfl, by omega, .inl rfl, fun e h1 h2 => h (i - e) (by omega) (by omega)⟩
  | succ j ih =>
    intro hj h
    unfold minShiftLoop
    rw [List.getElem?_eq_getElem (show j < key.length by omega), List.getElem?_eq_getElem hi]
    simp only
    by_cases he : key[j] = key[i]
    · rw [if_pos he]
      refine ⟨i - j, rfl, by omega, .inr ⟨by omega, ?_⟩, fun e h1 h2 => h (i - e) (by omega) (by omega)⟩
      rw [show i - (i - j) = j by omega, List.getElem?_eq_getElem (show j < key.length by omega), List.getElem?_eq_getElem hi, he]
    · rw [if_neg he]
      apply ih (by omega)
      intro t h1 h2
      by_cases ht : t = j
      · subst ht
        rw [List.getElem?_eq_getElem (show t < key.length by omega), List.getElem?_eq_getElem hi]
        exact fun e => he (Option.some.inj e)
      · exact h t (by omega) h2

theorem mapM_get {β γ : Type} (f : β → Option γ) : ∀ (l : List β) (r : List γ), l.mapM f = some r → ∀ (i : Nat) (x : β), l[i]? = some x → r[i]? = f x := by
  intro l
  induction l with
  | nil => intro r _ i x h; simp at h
  | cons a l ih =>
    intro r e i x h
    rw [List.mapM_cons] at e
    cases ha : f a with
    | none => simp [ha] at e
    | some y =>
      cases hl : l.mapM f with
      | none => simp [ha, hl] at e
      | some ys =>
        simp only [ha, hl, Option.bind_eq_bind, Option.bind_some, Option.pure_def, Option.some.injEq] at e
        subst e
        cases i with
        | zero => simp only [List.getElem?_cons_zero, Option.some.injEq] at h ⊢; rw [← h, ha]
        | succ i => exact ih ys hl i x (by simpa using h)

theorem insertBy_sorted {β : Type} (lt : β → β → Bool) (P : β → Prop) (htr : ∀ a b c, P a → P b → P c → lt a b → lt b c → lt a c)
    (x : β) (hx : P x) : ∀ l : List β, (∀ y ∈ l, P y ∧ (lt y x ∨ lt x y)) → l.Pairwise (fun a b => lt a b) →
    (insertBy lt x l).Pairwise (fun a b => lt a b) := by
  intro l
  induction l with
  | nil => intro _ _; simp [insertBy]
  | cons y ys ih =>
    intro h hs
    unfold insertBy
    rw [List.pairwise_cons] at hs
    by_cases hy : lt y x
    · rw [if_pos hy, List.pairwise_cons]
      refine ⟨fun z hz => ?_, ih (fun z hz => h z (by simp [hz])) hs.2⟩
      rw [(insertBy_perm lt x ys).mem_iff, List.mem_cons] at hz
      rcases hz with rfl | hz
      · exact hy
      · exact hs.1 z hz
    · rw [if_neg hy, List.pairwise_cons]
      have hxy : lt x y := ((h y (by simp)).2).resolve_left hy
      refine ⟨fun z hz => ?_, List.pairwise_cons.2 hs⟩
      rw [List.mem_cons] at hz
      rcases hz with rfl | hz
      · exact hxy
      · exact htr x y z hx (h y (by simp)).1 (h z (by simp [hz])).1 hxy (hs.1 z hz)

theorem sort_sorted {β : Type} (lt : β → β → Bool) (P : β → Prop) (htr : ∀ a b c, P a → P b → P c → lt a b → lt b c → lt a c) :
    ∀ l : List β, (∀ y ∈ l, P y) → l.Pairwise (fun a b => lt a b ∨ lt b a) → (l.foldr (insertBy lt) []).Pairwise (fun a b => lt a b) := by
  intro l
  induction l with
  | nil => intro _ _; exact .nil
  | cons x l ih =>
    intro hP h
    rw [List.pairwise_cons] at h
    rw [List.foldr_cons]
    apply insertBy_sorted lt P htr x (hP x (by simp)) _ _ (ih (fun y hy => hP y (by simp [hy])) h.2)
    intro y hy
    rw [(sort_perm lt l).mem_iff] at hy
    exact ⟨hP y (by simp [hy]), (h.1 y hy).symm⟩

end Verif.PM

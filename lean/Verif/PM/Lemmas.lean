/-
Helper facts for the pattern matching functions.
-/
import Verif.PM.Model

namespace Verif.PM

/-- The key occurs in the text at position `i`. -/
def Occ (key text : List Byte) (i : Nat) : Prop := i + key.length ≤ text.length ∧ ∀ j, j < key.length → text[i + j]? = key[j]?

/-- `acc` lists the occurrences before `i`. -/
def Found (key text : List Byte) (i : Nat) (acc : List Nat) : Prop :=
  acc.Pairwise (· < ·) ∧ ∀ p, p ∈ acc ↔ (p < i ∧ Occ key text p)

theorem Found_zero (key text : List Byte) : Found key text 0 [] := ⟨.nil, by simp⟩

theorem Found_hit {key text : List Byte} {i : Nat} {acc : List Nat} (h : Found key text i acc) (ho : Occ key text i) :
    Found key text (i + 1) (acc ++ [i]) := by
  refine ⟨?_, ?_⟩
  · rw [List.pairwise_append]
    refine ⟨h.1, by simp, ?_⟩
    intro a ha b hb
    rw [List.mem_singleton.1 hb]
    exact ((h.2 a).1 ha).1
  · intro p
    rw [List.mem_append, h.2 p, List.mem_singleton]
    constructor
    · rintro (⟨h1, h2⟩ | rfl)
      · exact ⟨by omega, h2⟩
      · exact ⟨by omega, ho⟩
    · rintro ⟨h1, h2⟩
      by_cases hp : p = i
      · exact Or.inr hp
      · exact Or.inl ⟨by omega, h2⟩

theorem Found_skip {key text : List Byte} {i j : Nat} {acc : List Nat} (h : Found key text i acc) (hij : i ≤ j)
    (hn : ∀ p, i ≤ p → p < j → ¬ Occ key text p) : Found key text j acc := by
  refine ⟨h.1, fun p => ?_⟩
  rw [h.2 p]
  constructor
  · rintro ⟨h1, h2⟩; exact ⟨by omega, h2⟩
  · rintro ⟨h1, h2⟩
    by_cases hp : p < i
    · exact ⟨hp, h2⟩
    · exact absurd h2 (hn p (by omega) h1)

theorem Found_step {key text : List Byte} {i d : Nat} {acc : List Nat} (h : Found key text i acc) (hd : 0 < d) (c : Prop) [Decidable c]
    (hc : c ↔ Occ key text i) (hn : ∀ p, i < p → p < i + d → ¬ Occ key text p) :
    Found key text (i + d) (if c then acc ++ [i] else acc) := by
  by_cases hcc : c
  · rw [if_pos hcc]
    exact Found_skip (Found_hit h (hc.1 hcc)) (by omega) (fun p h1 h2 => hn p (by omega) h2)
  · rw [if_neg hcc]
    refine Found_skip h (by omega) (fun p h1 h2 => ?_)
    by_cases hp : p = i
    · rw [hp]; exact fun ho => hcc (hc.2 ho)
    · exact hn p (by omega) h2

theorem Found_done {key text : List Byte} {i : Nat} {acc : List Nat} (h : Found key text i acc) (hi : text.length < i + key.length) :
    acc.Pairwise (· < ·) ∧ ∀ p, p ∈ acc ↔ Occ key text p := by
  refine ⟨h.1, fun p => ?_⟩
  rw [h.2 p]
  constructor
  · exact fun h => h.2
  · intro ho
    have := ho.1
    exact ⟨by omega, ho⟩

/-! ### Simple -/

theorem simpleScan_spec (key text : List Byte) (i : Nat) (hi : i + key.length ≤ text.length) : ∀ (k pos : Nat), key.length - pos = k →
    pos ≤ key.length → (∀ j, j < pos → text[i + j]? = key[j]?) →
    ∃ r, simpleScan key text i pos = some r ∧ (r = key.length ↔ Occ key text i) := by
  intro k
  induction k with
  | zero =>
    intro pos hk hp hm
    unfold simpleScan
    have : pos = key.length := by omega
    subst this
    rw [dif_neg (by omega)]
    exact ⟨_, rfl, ⟨fun _ => ⟨hi, hm⟩, fun _ => rfl⟩⟩
  | succ k ih =>
    intro pos hk hp hm
    unfold simpleScan
    rw [dif_pos (by omega), List.getElem?_eq_getElem (show pos < key.length by omega),
      List.getElem?_eq_getElem (show i + pos < text.length by omega)]
    simp only
    by_cases he : key[pos] = text[i + pos]
    · rw [if_pos he]
      refine ih (pos + 1) (by omega) (by omega) ?_
      intro j hj
      by_cases hjp : j = pos
      · subst hjp
        rw [List.getElem?_eq_getElem (show j < key.length by omega), List.getElem?_eq_getElem (show i + j < text.length by omega), he]
      · exact hm j (by omega)
    · rw [if_neg he]
      refine ⟨pos, rfl, ⟨fun h => by omega, fun h => ?_⟩⟩
      have := h.2 pos (by omega)
      rw [List.getElem?_eq_getElem (show pos < key.length by omega), List.getElem?_eq_getElem (show i + pos < text.length by omega)] at this
      exact absurd (Option.some.inj this).symm he

theorem simpleLoop_spec (key text : List Byte) (hl : key.length ≤ text.length) : ∀ (k i : Nat) (acc : List Nat),
    text.length - key.length + 1 - i = k → Found key text i acc →
    ∃ r, simpleLoop key text i acc = some r ∧ r.Pairwise (· < ·) ∧ ∀ p, p ∈ r ↔ Occ key text p := by
  intro k
  induction k with
  | zero =>
    intro i acc hk hf
    unfold simpleLoop
    rw [dif_neg (by omega)]
    exact ⟨acc, rfl, Found_done hf (by omega)⟩
  | succ k ih =>
    intro i acc hk hf
    unfold simpleLoop
    rw [dif_pos (by omega)]
    obtain ⟨r, e, hr⟩ := simpleScan_spec key text i (by omega) _ 0 rfl (by omega) (by omega)
    simp only [e]
    exact ih (i + 1) _ (by omega) (Found_step hf (by omega) _ hr (fun p h1 h2 => by omega))

/-! ### BM -/

theorem charIndex_some (c : Byte) (h : c.toNat < 128) : charIndex c = some c.toNat := by unfold charIndex; rw [if_pos h]

theorem bmBuildLoop_gen (key : List Byte) (ha : ∀ j c, j + 1 < key.length → key[j]? = some c → c.toNat < 128) : ∀ (k i : Nat) (skip : List Nat), key.length - i = k →
    skip.length = 255 →
    (∀ x d, skip[x]? = some d → 0 < d ∧ d ≤ key.length ∧ ∀ j c, j < i → j + 1 < key.length → key[j]? = some c → c.toNat = x → d + j + 1 ≤ key.length) →
    ∃ s, bmBuildLoop key i skip = some s ∧ s.length = 255 ∧
      ∀ x d, s[x]? = some d → 0 < d ∧ d ≤ key.length ∧ ∀ j c, j + 1 < key.length → key[j]? = some c → c.toNat = x → d + j + 1 ≤ key.length := by
  intro k
  induction k with
  | zero =>
    intro i skip hk hl h
    unfold bmBuildLoop
    rw [dif_neg (by omega)]
    refine ⟨skip, rfl, hl, fun x d hx => ⟨(h x d hx).1, (h x d hx).2.1, fun j c h1 h2 h3 => (h x d hx).2.2 j c (by omega) h1 h2 h3⟩⟩
  | succ k ih =>
    intro i skip hk hl h
    unfold bmBuildLoop
    by_cases hi : i < key.length - 1
    · rw [dif_pos hi]
      have hk' : i < key.length := by omega
      have hc := ha i key[i] (by omega) (List.getElem?_eq_getElem hk')
      simp only [List.getElem?_eq_getElem hk', Option.bind_eq_bind, Option.bind_some, charIndex_some _ hc]
      rw [wr_eq _ _ _ (by omega)]
      simp only [Option.bind_some]
      apply ih (i + 1) _ (by omega) (by simpa using hl)
      intro x d hx
      rw [List.getElem?_set] at hx
      by_cases hxe : key[i].toNat = x
      · rw [if_pos hxe, if_pos (by omega)] at hx
        have hd := Option.some.inj hx
        refine ⟨by omega, by omega, fun j c h1 h2 h3 h4 => by omega⟩
      · rw [if_neg hxe] at hx
        refine ⟨(h x d hx).1, (h x d hx).2.1, fun j c h1 h2 h3 h4 => ?_⟩
        by_cases hj : j = i
        · subst hj
          rw [List.getElem?_eq_getElem hk'] at h3
          rw [← Option.some.inj h3] at h4
          exact absurd h4 hxe
        · exact (h x d hx).2.2 j c (by omega) h2 h3 h4
    · rw [dif_neg hi]
      refine ⟨skip, rfl, hl, fun x d hx => ⟨(h x d hx).1, (h x d hx).2.1, fun j c h1 h2 h3 => (h x d hx).2.2 j c (by omega) h1 h2 h3⟩⟩

theorem bmBuildLoop_spec (key : List Byte) (ha : ∀ c ∈ key, c.toNat < 128) : ∀ (k i : Nat) (skip : List Nat), key.length - i = k →
    skip.length = 255 →
    (∀ x d, skip[x]? = some d → 0 < d ∧ d ≤ key.length ∧ ∀ j c, j < i → j + 1 < key.length → key[j]? = some c → c.toNat = x → d + j + 1 ≤ key.length) →
    ∃ s, bmBuildLoop key i skip = some s ∧ s.length = 255 ∧
      ∀ x d, s[x]? = some d → 0 < d ∧ d ≤ key.length ∧ ∀ j c, j + 1 < key.length → key[j]? = some c → c.toNat = x → d + j + 1 ≤ key.length :=
  bmBuildLoop_gen key (fun _ c _ hc => ha c (List.mem_of_getElem? hc))

theorem bmBack_spec (key text : List Byte) (i : Nat) (hi : i + key.length ≤ text.length) : ∀ (r : Nat), r ≤ key.length →
    (∀ j, r ≤ j → j < key.length → text[i + j]? = key[j]?) →
    ∃ r' p, bmBack key text r (i + r) = some (r', p) ∧ p = i + r' ∧ (r' = 0 ↔ Occ key text i) := by
  intro r
  induction r with
  | zero =>
    intro _ hm
    exact ⟨0, i, rfl, rfl, ⟨fun _ => ⟨hi, fun j hj => hm j (by omega) hj⟩, fun _ => rfl⟩⟩
  | succ r ih =>
    intro hr hm
    unfold bmBack
    rw [List.getElem?_eq_getElem (show r < key.length by omega)]
    have h2 : i + (r + 1) - 1 = i + r := by omega
    rw [h2, List.getElem?_eq_getElem (show i + r < text.length by omega)]
    simp only
    by_cases he : key[r] = text[i + r]
    · rw [if_pos he]
      apply ih (by omega)
      intro j h1 h2
      by_cases hj : j = r
      · subst hj
        rw [List.getElem?_eq_getElem (show j < key.length by omega), List.getElem?_eq_getElem (show i + j < text.length by omega), he]
      · exact hm j (by omega) h2
    · rw [if_neg he]
      refine ⟨r + 1, i + (r + 1), rfl, rfl, ⟨fun h => by omega, fun h => ?_⟩⟩
      have := h.2 r (by omega)
      rw [List.getElem?_eq_getElem (show r < key.length by omega), List.getElem?_eq_getElem (show i + r < text.length by omega)] at this
      exact absurd (Option.some.inj this).symm he

/-- The search finds the occurrences, or it reads a byte from 0x80 on. -/
theorem bmLoop_gen (key text : List Byte) (hne : 0 < key.length) (skip : List Nat) (hsl : skip.length = 255)
    (hs : ∀ x d, skip[x]? = some d → 0 < d ∧ d ≤ key.length ∧ ∀ j c, j + 1 < key.length → key[j]? = some c → c.toNat = x → d + j + 1 ≤ key.length) :
    ∀ (k s : Nat) (acc : List Nat), text.length - s ≤ k → Found key text s acc →
    (∃ r, bmLoop key text skip (s + (key.length - 1)) acc = some r ∧ r.Pairwise (· < ·) ∧ ∀ p, p ∈ r ↔ Occ key text p) ∨
      (bmLoop key text skip (s + (key.length - 1)) acc = none ∧ ∃ c ∈ text, 128 ≤ c.toNat) := by
  intro k
  induction k with
  | zero =>
    intro s acc hk hf
    unfold bmLoop
    rw [dif_neg (by omega)]
    exact .inl ⟨acc, rfl, Found_done hf (by omega)⟩
  | succ k ih =>
    intro s acc hk hf
    unfold bmLoop
    by_cases hi : s + (key.length - 1) < text.length
    · rw [dif_pos hi]
      obtain ⟨r', p, e, hp, hr⟩ := bmBack_spec key text s (by omega) key.length (Nat.le_refl _) (fun j h1 h2 => by omega)
      have e2 : s + (key.length - 1) + 1 = s + key.length := by omega
      rw [e2, e]
      simp only
      rw [List.getElem?_eq_getElem hi]
      rcases (Nat.lt_or_ge (text[s + (key.length - 1)]).toNat 128).symm with hc | hc
      · right
        simp only [Option.bind_some, charIndex, if_neg (Nat.not_lt.2 hc)]
        exact ⟨trivial, _, List.getElem_mem hi, hc⟩
      simp only [Option.bind_some, charIndex_some _ hc]
      rw [List.getElem?_eq_getElem (show (text[s + (key.length - 1)]).toNat < skip.length by omega)]
      simp only
      have hd := hs _ _ (List.getElem?_eq_getElem (show (text[s + (key.length - 1)]).toNat < skip.length by omega))
      generalize skip[(text[s + (key.length - 1)]).toNat] = d at hd
      rw [dif_pos hd.1]
      have e3 : s + (key.length - 1) + d = s + d + (key.length - 1) := by omega
      rw [e3]
      apply ih (s + d) _ (by omega)
      have hite : (if r' = 0 then acc ++ [p] else acc) = (if r' = 0 then acc ++ [s] else acc) := by
        by_cases h0 : r' = 0
        · rw [if_pos h0, if_pos h0, hp, h0]; rfl
        · rw [if_neg h0, if_neg h0]
      rw [hite]
      apply Found_step hf hd.1 _ hr
      intro q h1 h2 ho
      have h3 := ho.2 (s + key.length - 1 - q) (by omega)
      have h4 : q + (s + key.length - 1 - q) = s + (key.length - 1) := by omega
      rw [h4, List.getElem?_eq_getElem hi] at h3
      have h5 := hd.2.2 (s + key.length - 1 - q) _ (by omega) h3.symm rfl
      omega
    · rw [dif_neg hi]
      exact .inl ⟨acc, rfl, Found_done hf (by omega)⟩

theorem bmLoop_spec (key text : List Byte) (hne : 0 < key.length) (ht : ∀ c ∈ text, c.toNat < 128) (skip : List Nat) (hsl : skip.length = 255)
    (hs : ∀ x d, skip[x]? = some d → 0 < d ∧ d ≤ key.length ∧ ∀ j c, j + 1 < key.length → key[j]? = some c → c.toNat = x → d + j + 1 ≤ key.length) :
    ∀ (k s : Nat) (acc : List Nat), text.length - s ≤ k → Found key text s acc →
    ∃ r, bmLoop key text skip (s + (key.length - 1)) acc = some r ∧ r.Pairwise (· < ·) ∧ ∀ p, p ∈ r ↔ Occ key text p := by
  intro k s acc hk hf
  rcases bmLoop_gen key text hne skip hsl hs k s acc hk hf with h | ⟨_, c, hc, h⟩
  · exact h
  · have := ht c hc
    omega

end Verif.PM

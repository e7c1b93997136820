/-
Helper facts for the KMP search.
-/
import Verif.PM.Lemmas

namespace Verif.PM

/-- `k` is a proper border of the first `j` symbols of `f`. -/
def Bd (f : Nat → Option Byte) (j k : Nat) : Prop := k < j ∧ ∀ t, t < k → f t = f (j - k + t)

theorem Bd_trans {f : Nat → Option Byte} {j n k : Nat} (h1 : Bd f j n) (h2 : Bd f n k) : Bd f j k := by
  refine ⟨by have := h1.1; have := h2.1; omega, fun t ht => ?_⟩
  rw [h2.2 t ht, h1.2 (n - k + t) (by have := h2.1; omega)]
  congr 1; have := h1.1; have := h2.1; omega

theorem Bd_inner {f : Nat → Option Byte} {j n k : Nat} (h1 : Bd f j n) (h2 : Bd f j k) (hk : k < n) : Bd f n k := by
  refine ⟨hk, fun t ht => ?_⟩
  rw [h2.2 t ht, h1.2 (n - k + t) (by omega)]
  congr 1; have := h1.1; omega

/-- What an entry `p` of `next_` at `j` says. -/
def NextOk (f : Nat → Option Byte) (j : Nat) (p : Int) : Prop :=
  -1 ≤ p ∧ p < j ∧ (∀ k, Bd f j k → p < (k : Int) → f k = f j) ∧ (p = -1 ∨ (Bd f j p.toNat ∧ f p.toNat ≠ f j))

/-- A family of lengths that is closed in the way borders are. -/
def Closed (f : Nat → Option Byte) (M : Nat → Prop) : Prop := ∀ p k, M p → k < p → (M k ↔ Bd f p k)

theorem kmpBack_spec (key : List Byte) (past : Option Byte) (next : List Int) (c : Byte) (M : Nat → Prop) (f : Nat → Option Byte)
    (hf : ∀ j, f j = key[j]?) (hM : Closed f M) (L : Nat) (hL : L ≤ key.length) (hn : ∀ j, j ≤ L → ∃ p, next[j]? = some p ∧ NextOk f j p)
    (hpast : M key.length → ∃ b, past = some b ∧ b ≠ c) :
    ∀ (n : Nat) (pos : Int), (pos + 1).toNat = n → -1 ≤ pos → pos ≤ L → (pos = -1 ∨ M pos.toNat) →
    (∀ k, M k → pos < (k : Int) → f k ≠ some c) →
    ∃ r : Int, kmpBack key past next c pos = some r ∧ -1 ≤ r ∧ r ≤ pos ∧ (r = -1 ∨ (M r.toNat ∧ f r.toNat = some c)) ∧
      ∀ k, M k → r < (k : Int) → f k ≠ some c := by
  intro n
  induction n using Nat.strongRecOn with
  | ind n ih =>
    intro pos hnn h1 hpL hpM hno
    unfold kmpBack
    by_cases hp : pos > -1
    · rw [dif_pos hp]
      have hMp : M pos.toNat := by rcases hpM with h | h; omega; exact h
      have hkey : ∃ b, keyAt key past pos.toNat = some b ∧ (b = c ↔ f pos.toNat = some c) := by
        unfold keyAt
        by_cases hlt : pos.toNat < key.length
        · rw [if_pos hlt, List.getElem?_eq_getElem hlt]
          refine ⟨_, rfl, ?_⟩
          rw [hf, List.getElem?_eq_getElem hlt]
          simp
        · have : pos.toNat = key.length := by omega
          rw [if_neg hlt, if_pos (by omega)]
          obtain ⟨b, hb, hbc⟩ := hpast (this ▸ hMp)
          refine ⟨b, hb, ?_⟩
          rw [hf, List.getElem?_eq_none (by omega)]
          simp [hbc]
      obtain ⟨b, hb, hbc⟩ := hkey
      rw [hb]
      simp only
      by_cases hbe : b = c
      · rw [if_neg (by simp [hbe])]
        exact ⟨pos, rfl, h1, Int.le_refl _, Or.inr ⟨hMp, hbc.1 hbe⟩, hno⟩
      · rw [if_pos hbe]
        obtain ⟨p, hp1, hp2⟩ := hn pos.toNat (by omega)
        rw [hp1]
        simp only
        have hlt : p < pos ∧ -1 ≤ p := by have := hp2.1; have := hp2.2.1; omega
        rw [dif_pos hlt]
        have hfp : f pos.toNat ≠ some c := fun h => hbe (hbc.2 h)
        obtain ⟨r, er, hr1, hr2, hr3, hr4⟩ := ih (p + 1).toNat (by omega) p rfl hlt.2 (by omega) (by
          rcases hp2.2.2.2 with h | ⟨h, _⟩
          · exact Or.inl h
          · exact Or.inr ((hM pos.toNat p.toNat hMp h.1).2 h)) (by
          intro k hk hpk
          by_cases hkp : (k : Int) > pos
          · exact hno k hk hkp
          · by_cases hke : k = pos.toNat
            · rw [hke]; exact hfp
            · have hb2 := (hM pos.toNat k hMp (by omega)).1 hk
              rw [hp2.2.2.1 k hb2 hpk]
              exact hfp)
        exact ⟨r, er, hr1, by omega, hr3, hr4⟩
    · rw [dif_neg hp]
      exact ⟨pos, rfl, h1, Int.le_refl _, Or.inl (by omega), hno⟩

/-- `n` is the length of the longest proper border of the first `j` symbols. -/
def Longest (f : Nat → Option Byte) (j n : Nat) : Prop := Bd f j n ∧ ∀ k, Bd f j k → k ≤ n

theorem Bd_succ (f : Nat → Option Byte) (i k : Nat) : Bd f (i + 1) (k + 1) ↔ (Bd f i k ∧ f k = f i) := by
  constructor
  · rintro ⟨h1, h2⟩
    refine ⟨⟨by omega, fun t ht => ?_⟩, ?_⟩
    · rw [h2 t (by omega)]; congr 1; omega
    · rw [h2 k (by omega)]; congr 1; omega
  · rintro ⟨⟨h1, h2⟩, h3⟩
    refine ⟨by omega, fun t ht => ?_⟩
    by_cases htk : t = k
    · subst htk; rw [h3]; congr 1; omega
    · rw [h2 t (by omega)]; congr 1; omega

theorem Bd_closed (f : Nat → Option Byte) (i : Nat) : Closed f (Bd f i) :=
  fun _ _ hp hk => ⟨fun h => Bd_inner hp h hk, fun h => Bd_trans hp h⟩

theorem kmpBuildLoop_spec (key : List Byte) (f : Nat → Option Byte) (hf : ∀ j, f j = key[j]?) : ∀ (m i : Nat) (n : Int) (next : List Int),
    key.length - i = m → i ≤ key.length → next.length = key.length + 1 →
    (∀ j, j ≤ i → ∃ p, next[j]? = some p ∧ NextOk f j p) →
    (i = 0 ∧ n = -1 ∨ 0 < i ∧ 0 ≤ n ∧ Longest f i n.toNat) →
    ∃ t, kmpBuildLoop key i n next = some t ∧ t.length = key.length + 1 ∧ ∀ j, j ≤ key.length → ∃ p, t[j]? = some p ∧ NextOk f j p := by
  intro m
  induction m with
  | zero =>
    intro i n next hm hi hl hN _
    unfold kmpBuildLoop
    rw [dif_neg (by omega)]
    exact ⟨next, rfl, hl, fun j hj => hN j (by omega)⟩
  | succ m ih =>
    intro i n next hm hi hl hN hn
    unfold kmpBuildLoop
    have hik : i < key.length := by omega
    rw [dif_pos hik]
    simp only [List.getElem?_eq_getElem hik, Option.bind_eq_bind, Option.bind_some]
    obtain ⟨r, er, hr1, hr2, hr3, hr4⟩ := kmpBack_spec key none next key[i] (Bd f i) f hf (Bd_closed f i) i (by omega) hN (fun h => by have := h.1; omega)
      (n + 1).toNat n rfl (by omega) (by
        rcases hn with h | ⟨h1, h2, h3⟩
        · omega
        · have := h3.1.1; omega) (by
        rcases hn with h | ⟨h1, h2, h3⟩
        · exact Or.inl h.2
        · exact Or.inr h3.1) (by
        intro k hk hnk
        rcases hn with h | ⟨h1, h2, h3⟩
        · have := hk.1; omega
        · have := h3.2 k hk; omega)
    rw [er]
    simp only [Option.bind_some]
    have hfi : f i = some key[i] := by rw [hf, List.getElem?_eq_getElem hik]
    have hLong : Longest f (i + 1) (r + 1).toNat := by
      refine ⟨?_, ?_⟩
      · rcases hr3 with h | ⟨h1, h2⟩
        · subst h
          exact ⟨by simp, fun t ht => by simp at ht⟩
        · by_cases hneg : r = -1
          · subst hneg
            exact ⟨by simp, fun t ht => by simp at ht⟩
          · have : (r + 1).toNat = r.toNat + 1 := by omega
            rw [this, Bd_succ]
            exact ⟨h1, by rw [h2, hfi]⟩
      · intro k hk
        cases k with
        | zero => omega
        | succ k =>
          rw [Bd_succ] at hk
          by_cases hrk : r < (k : Int)
          · exact absurd (hk.2.trans hfi) (hr4 k hk.1 hrk)
          · omega
    have hb := hLong.1
    have hnat : ((r + 1).toNat : Int) = r + 1 := Int.toNat_of_nonneg (by omega)
    -- the value stored
    have hv : ∃ v, kmpValue key i (r + 1) next = some v ∧ NextOk f (i + 1) v := by
      unfold kmpValue
      simp only [Option.bind_eq_bind, Option.pure_def]
      have hself : f (r + 1).toNat ≠ f (i + 1) → NextOk f (i + 1) (r + 1) := by
        intro hne
        refine ⟨by omega, by have := hb.1; omega, ?_, Or.inr ⟨hb, hne⟩⟩
        intro k hk hlt
        have := hLong.2 k hk
        omega
      by_cases h1 : i + 1 < key.length
      · rw [if_pos h1]
        have hrl : (r + 1).toNat < key.length := by have := hb.1; omega
        simp only [List.getElem?_eq_getElem h1, List.getElem?_eq_getElem hrl, Option.bind_some]
        by_cases he : key[i + 1] = key[(r + 1).toNat]
        · rw [if_pos he]
          obtain ⟨p, hp1, hp2⟩ := hN (r + 1).toNat (by have := hb.1; omega)
          refine ⟨p, hp1, hp2.1, by have := hp2.2.1; have := hb.1; omega, ?_, ?_⟩
          · have hfe : f (r + 1).toNat = f (i + 1) := by
              rw [hf, hf, List.getElem?_eq_getElem h1, List.getElem?_eq_getElem hrl, he]
            intro k hk hlt
            by_cases hkr : k = (r + 1).toNat
            · rw [hkr]; exact hfe
            · have := hLong.2 k hk
              rw [hp2.2.2.1 k (Bd_inner hb hk (by omega)) hlt, hfe]
          · have hfe : f (r + 1).toNat = f (i + 1) := by
              rw [hf, hf, List.getElem?_eq_getElem h1, List.getElem?_eq_getElem hrl, he]
            rcases hp2.2.2.2 with h | ⟨h2, h3⟩
            · exact Or.inl h
            · exact Or.inr ⟨Bd_trans hb h2, by rw [← hfe]; exact h3⟩
        · rw [if_neg he]
          refine ⟨_, rfl, hself ?_⟩
          rw [hf, hf, List.getElem?_eq_getElem h1, List.getElem?_eq_getElem hrl]
          intro h
          exact he (Option.some.inj h).symm
      · rw [if_neg h1]
        refine ⟨_, rfl, hself ?_⟩
        have hrl : (r + 1).toNat < key.length := by have := hb.1; omega
        rw [hf, hf, List.getElem?_eq_none (show key.length ≤ i + 1 by omega), List.getElem?_eq_getElem hrl]
        simp
    obtain ⟨v, ev, hvo⟩ := hv
    rw [ev]
    simp only [Option.bind_some]
    rw [wr_eq _ _ _ (by omega)]
    simp only [Option.bind_some]
    apply ih (i + 1) (r + 1) _ (by omega) (by omega) (by simpa using hl)
    · intro j hj
      rw [List.getElem?_set]
      by_cases hji : i + 1 = j
      · subst hji
        rw [if_pos rfl, if_pos (by omega)]
        exact ⟨v, rfl, hvo⟩
      · rw [if_neg hji]
        exact hN j (by omega)
    · exact Or.inr ⟨by omega, by omega, hLong⟩

theorem kmpBuild_spec (key : List Byte) : ∃ t, kmpBuild key = some t ∧ t.length = key.length + 1 ∧
    ∀ j, j ≤ key.length → ∃ p, t[j]? = some p ∧ NextOk (fun j => key[j]?) j p := by
  unfold kmpBuild
  rw [wr_eq _ _ _ (by simp)]
  simp only [Option.bind_eq_bind, Option.bind_some]
  apply kmpBuildLoop_spec key (fun j => key[j]?) (fun _ => rfl) _ 0 (-1) _ rfl (by omega) (by simp)
  · intro j hj
    have : j = 0 := by omega
    subst this
    refine ⟨-1, by simp, by omega, by omega, ?_, Or.inl rfl⟩
    intro k hk
    have := hk.1
    omega
  · exact Or.inl ⟨rfl, rfl⟩

/-- The first `p` symbols of the key stand before position `i` of the text. -/
def Suf (f g : Nat → Option Byte) (m i p : Nat) : Prop := p ≤ i ∧ p ≤ m ∧ ∀ t, t < p → f t = g (i - p + t)

theorem Suf_closed (f g : Nat → Option Byte) (m i : Nat) : Closed f (Suf f g m i) := by
  intro p k hp hk
  constructor
  · intro h
    refine ⟨hk, fun t ht => ?_⟩
    rw [h.2.2 t ht, hp.2.2 (p - k + t) (by omega)]
    congr 1; have := hp.1; omega
  · intro h
    refine ⟨by have := hp.1; omega, by have := hp.2.1; omega, fun t ht => ?_⟩
    rw [h.2 t ht, hp.2.2 (p - k + t) (by omega)]
    congr 1; have := hp.1; omega

theorem Suf_succ (f g : Nat → Option Byte) (m i k : Nat) : Suf f g m (i + 1) (k + 1) ↔ (k < m ∧ Suf f g m i k ∧ f k = g i) := by
  constructor
  · rintro ⟨h1, h2, h3⟩
    refine ⟨by omega, ⟨by omega, by omega, fun t ht => ?_⟩, ?_⟩
    · rw [h3 t (by omega)]; congr 1; omega
    · rw [h3 k (by omega)]; congr 1; omega
  · rintro ⟨h0, ⟨h1, h2, h3⟩, h4⟩
    refine ⟨by omega, by omega, fun t ht => ?_⟩
    by_cases htk : t = k
    · subst htk; rw [h4]; congr 1; omega
    · rw [h3 t (by omega)]; congr 1; omega

/-- One character of the search: the longest prefix that ends here. -/
theorem kmp_step (key text : List Byte) (past : Option Byte) (next : List Int)
    (hn : ∀ j, j ≤ key.length → ∃ p, next[j]? = some p ∧ NextOk (fun j => key[j]?) j p) (i : Nat) (c : Byte) (hi : text[i]? = some c)
    (hpast : Suf (fun j => key[j]?) (fun j => text[j]?) key.length i key.length → ∃ b, past = some b ∧ b ≠ c) (pos : Nat)
    (h1 : Suf (fun j => key[j]?) (fun j => text[j]?) key.length i pos)
    (h2 : ∀ k, Suf (fun j => key[j]?) (fun j => text[j]?) key.length i k → k ≤ pos) :
    ∃ r : Int, kmpBack key past next c pos = some r ∧ -1 ≤ r ∧
      Suf (fun j => key[j]?) (fun j => text[j]?) key.length (i + 1) (r + 1).toNat ∧
      ∀ k, Suf (fun j => key[j]?) (fun j => text[j]?) key.length (i + 1) k → k ≤ (r + 1).toNat := by
  obtain ⟨r, er, hr1, hr2, hr3, hr4⟩ := kmpBack_spec key past next c _ (fun j => key[j]?) (fun _ => rfl)
    (Suf_closed (fun j => key[j]?) (fun j => text[j]?) key.length i) key.length (Nat.le_refl _) hn hpast _ (pos : Int) rfl (by omega)
    (by have := h1.2.1; omega) (Or.inr (by simpa using h1)) (by
      intro k hk hlt
      have := h2 k hk
      omega)
  refine ⟨r, er, hr1, ?_, ?_⟩
  · rcases hr3 with h | ⟨h3, h4⟩
    · subst h
      exact ⟨by simp, by simp, fun t ht => by simp at ht⟩
    · by_cases hneg : r = -1
      · subst hneg; exact ⟨by simp, by simp, fun t ht => by simp at ht⟩
      · have e : (r + 1).toNat = r.toNat + 1 := by omega
        rw [e, Suf_succ]
        obtain ⟨hl, _⟩ := List.getElem?_eq_some_iff.1 h4
        exact ⟨hl, h3, by rw [h4]; exact hi.symm⟩
  · intro k hk
    cases k with
    | zero => omega
    | succ k =>
      rw [Suf_succ] at hk
      by_cases hrk : r < (k : Int)
      · exact absurd (hk.2.2.trans hi) (hr4 k hk.2.1 hrk)
      · omega

theorem Suf_occ (key text : List Byte) (i : Nat) (hi : key.length ≤ i) (hit : i ≤ text.length) :
    Suf (fun j => key[j]?) (fun j => text[j]?) key.length i key.length ↔ Occ key text (i - key.length) := by
  constructor
  · rintro ⟨_, _, h⟩
    exact ⟨by omega, fun j hj => (h j hj).symm⟩
  · rintro ⟨_, h⟩
    exact ⟨hi, Nat.le_refl _, fun j hj => (h j hj).symm⟩

theorem kmpLoop_spec (key text : List Byte) (past : Option Byte)
    (hb : ∀ p c, Occ key text p → text[p + key.length]? = some c → ∃ b, past = some b ∧ b ≠ c) (next : List Int)
    (hn : ∀ j, j ≤ key.length → ∃ p, next[j]? = some p ∧ NextOk (fun j => key[j]?) j p) : ∀ (m i pos : Nat) (acc : List Nat),
    text.length - i = m → i ≤ text.length → Suf (fun j => key[j]?) (fun j => text[j]?) key.length i pos →
    (∀ k, Suf (fun j => key[j]?) (fun j => text[j]?) key.length i k → k ≤ pos) → Found key text (i + 1 - key.length) acc →
    ∃ r, kmpLoop key past next text i pos acc = some r ∧ r.Pairwise (· < ·) ∧ ∀ p, p ∈ r ↔ Occ key text p := by
  intro m
  induction m with
  | zero =>
    intro i pos acc hm hi _ _ hf
    unfold kmpLoop
    rw [dif_neg (by omega)]
    by_cases hkt : key.length ≤ i
    · exact ⟨acc, rfl, Found_done hf (by omega)⟩
    · refine ⟨acc, rfl, Found_done hf (by omega)⟩
  | succ m ih =>
    intro i pos acc hm hi h1 h2 hf
    unfold kmpLoop
    have hit : i < text.length := by omega
    rw [dif_pos hit]
    simp only [List.getElem?_eq_getElem hit, Option.bind_eq_bind, Option.bind_some]
    obtain ⟨r, er, hr1, hr2, hr3⟩ := kmp_step key text past next hn i text[i] (List.getElem?_eq_getElem hit) (by
      intro h
      have hl := h.1
      refine hb (i - key.length) _ ((Suf_occ key text i hl hi).1 h) ?_
      rw [Nat.sub_add_cancel hl]
      exact List.getElem?_eq_getElem hit) pos h1 h2
    rw [er]
    simp only [Option.bind_some]
    have hnat : r + 1 = ((r + 1).toNat : Int) := (Int.toNat_of_nonneg (by omega)).symm
    rw [hnat]
    apply ih (i + 1) (r + 1).toNat _ (by omega) (by omega) hr2 hr3
    by_cases hlen : key.length ≤ i + 1
    · have e1 : i + 1 + 1 - key.length = (i + 1 - key.length) + 1 := by omega
      rw [e1]
      apply Found_step hf (by omega) _ _ (fun p h1 h2 => by omega)
      rw [← Suf_occ key text (i + 1) hlen (by omega)]
      constructor
      · intro h
        have : (r + 1).toNat = key.length := by omega
        rw [this] at hr2
        exact hr2
      · intro h
        have := hr3 _ h
        have := hr2.2.1
        omega
    · have := hr2.1
      rw [if_neg (by omega)]
      have e1 : i + 1 + 1 - key.length = i + 1 - key.length := by omega
      rw [e1]
      exact hf

/-- Without a byte after the key, the search ends in undefined behaviour at the first occurrence that is not at the end of the text. -/
theorem kmpLoop_ub (key text : List Byte) (next : List Int)
    (hn : ∀ j, j ≤ key.length → ∃ p, next[j]? = some p ∧ NextOk (fun j => key[j]?) j p) (q : Nat) (hq : Occ key text q)
    (hqt : q + key.length < text.length) : ∀ (m i pos : Nat) (acc : List Nat),
    q + key.length - i = m → i ≤ q + key.length → Suf (fun j => key[j]?) (fun j => text[j]?) key.length i pos →
    (∀ k, Suf (fun j => key[j]?) (fun j => text[j]?) key.length i k → k ≤ pos) →
    kmpLoop key none next text i pos acc = none := by
  have stop : ∀ (i pos : Nat) (acc : List Nat), i < text.length → pos = key.length → kmpLoop key none next text i pos acc = none := by
    intro i pos acc hit hp
    unfold kmpLoop
    rw [dif_pos hit]
    simp only [List.getElem?_eq_getElem hit, Option.bind_eq_bind, Option.bind_some]
    unfold kmpBack
    rw [dif_pos (by omega)]
    unfold keyAt
    rw [if_neg (by omega), if_pos (by omega)]
    rfl
  intro m
  induction m with
  | zero =>
    intro i pos acc hm hi h1 h2
    have e : i = q + key.length := by omega
    apply stop i pos acc (by omega)
    have := h2 key.length ((Suf_occ key text i (by omega) (by omega)).2 (by rw [e, Nat.add_sub_cancel]; exact hq))
    have := h1.2.1
    omega
  | succ m ih =>
    intro i pos acc hm hi h1 h2
    by_cases hp : pos = key.length
    · exact stop i pos acc (by omega) hp
    · unfold kmpLoop
      have hit : i < text.length := by omega
      rw [dif_pos hit]
      simp only [List.getElem?_eq_getElem hit, Option.bind_eq_bind, Option.bind_some]
      obtain ⟨r, er, hr1, hr2, hr3⟩ := kmp_step key text none next hn i text[i] (List.getElem?_eq_getElem hit) (by
        intro h
        have := h2 _ h
        have := h1.2.1
        omega) pos h1 h2
      rw [er]
      simp only [Option.bind_some]
      have hnat : r + 1 = ((r + 1).toNat : Int) := (Int.toNat_of_nonneg (by omega)).symm
      rw [hnat]
      exact ih (i + 1) (r + 1).toNat _ (by omega) (by omega) hr2 hr3

end Verif.PM

/-
Readers that accept only what the writer writes.
-/
import Verif.Serial.Props

namespace Verif.Serial

variable {α β : Type}

/-- Whatever bytes `rd` accepts, writing the object back gives the bytes taken, and they are read the same whatever follows. -/
def Canon (rd : Stream → Option (α × Stream)) (wr : α → Stream) : Prop :=
  ∀ b v r, rd b = some (v, r) → b = wr v ++ r ∧ ∀ q, rd (wr v ++ q) = some (v, q)

/-- With such a reader no proper prefix of what was written is accepted. -/
theorem Canon.cut {rd : Stream → Option (α × Stream)} {wr : α → Stream} (h : Canon rd wr) {v : α} (hv : rd (wr v) = some (v, []))
    {p : Stream} (hp : p <+: wr v) (hne : p ≠ wr v) : rd p = none := by
  cases e : rd p with
  | none => rfl
  | some x =>
    exfalso
    obtain ⟨v', r⟩ := x
    obtain ⟨e1, e2⟩ := h p v' r e
    obtain ⟨q, hq⟩ := hp
    have := e2 (r ++ q)
    rw [← List.append_assoc, ← e1, hq, hv] at this
    simp only [Option.some.injEq, Prod.mk.injEq] at this
    have hq0 : q = [] := (List.append_eq_nil_iff.1 this.2.symm).2
    subst hq0
    simp at hq
    exact hne hq

theorem leVal_lt : ∀ s : Stream, leVal s < 256 ^ s.length := by
  intro s
  induction s with
  | nil => simp [leVal]
  | cons b s ih =>
    have : b.toNat < 256 := b.isLt
    simp only [leVal, List.length_cons, Nat.pow_succ]
    omega

theorem writeVal_leVal : ∀ s : Stream, writeVal s.length (leVal s) = s := by
  intro s
  induction s with
  | nil => rfl
  | cons b s ih =>
    unfold writeVal at ih ⊢
    rw [List.length_cons, List.range_succ_eq_map, List.map_cons, List.map_map]
    have hb : b.toNat < 256 := b.isLt
    congr 1
    · apply BitVec.eq_of_toNat_eq
      simp [leVal]
      omega
    · refine Eq.trans (List.map_congr_left ?_) ih
      intro i _
      simp only [Function.comp, leVal, Nat.succ_eq_add_one]
      rw [Nat.pow_succ, Nat.mul_comm (256 ^ i), ← Nat.div_div_eq_div_mul, show (b.toNat + 256 * leVal s) / 256 = leVal s by omega]

theorem canon_val (k : Nat) : Canon (readVal k) (writeVal k) := by
  intro b v r e
  unfold readVal at e
  split at e
  case isFalse => cases e
  case isTrue h =>
    simp only [Option.some.injEq, Prod.mk.injEq] at e
    obtain ⟨rfl, rfl⟩ := e
    have hl : (b.take k).length = k := by simp; omega
    have h1 := writeVal_leVal (b.take k)
    have h2 := leVal_lt (b.take k)
    rw [hl] at h1 h2
    refine ⟨?_, fun q => readVal_writeVal k _ h2 q⟩
    rw [h1, List.take_append_drop]

/-- Reading `n` objects in order. -/
theorem canon_many {rd : Stream → Option (α × Stream)} {wr : α → Stream} (h : Canon rd wr) (rdn : Nat → Stream → Option (List α × Stream))
    (h0 : ∀ s, rdn 0 s = some ([], s)) (h1 : ∀ n s, rdn (n + 1) s = (rd s).bind fun p => (rdn n p.2).bind fun l => some (p.1 :: l.1, l.2)) :
    ∀ n, ∀ b v r, rdn n b = some (v, r) → v.length = n ∧ b = (v.map wr).flatten ++ r ∧ ∀ q, rdn n ((v.map wr).flatten ++ q) = some (v, q) := by
  intro n
  induction n with
  | zero =>
    intro b v r e
    rw [h0] at e
    simp only [Option.some.injEq, Prod.mk.injEq] at e
    obtain ⟨rfl, rfl⟩ := e
    exact ⟨rfl, rfl, fun q => h0 q⟩
  | succ n ih =>
    intro b v r e
    rw [h1] at e
    cases e1 : rd b with
    | none => rw [e1] at e; cases e
    | some x =>
      obtain ⟨a, s⟩ := x
      rw [e1] at e
      dsimp only [Option.bind_some] at e
      cases e2 : rdn n s with
      | none => rw [e2] at e; cases e
      | some y =>
        obtain ⟨l, t⟩ := y
        rw [e2] at e
        simp only [Option.bind_some, Option.some.injEq, Prod.mk.injEq] at e
        obtain ⟨rfl, rfl⟩ := e
        obtain ⟨g1, g2, g3⟩ := ih s l t e2
        obtain ⟨k1, k2⟩ := h b a s e1
        refine ⟨by simp [g1], by rw [k1, g2]; simp, fun q => ?_⟩
        rw [h1, List.map_cons, List.flatten_cons, List.append_assoc, k2]
        dsimp only [Option.bind_some]
        rw [g3]
        rfl

theorem elems_canon (k n : Nat) : ∀ b v r, readElems k n b = some (v, r) →
    v.length = n ∧ b = (v.map (writeVal k)).flatten ++ r ∧ ∀ q, readElems k n ((v.map (writeVal k)).flatten ++ q) = some (v, q) :=
  canon_many (canon_val k) (readElems k) (fun _ => rfl) (fun _ _ => rfl) n

theorem elems_lt (k : Nat) : ∀ n b v r, readElems k n b = some (v, r) → ∀ x ∈ v, x < 256 ^ k := by
  intro n
  induction n with
  | zero => intro b v r e; cases e; simp
  | succ n ih =>
    intro b v r e
    unfold readElems at e
    cases e1 : readVal k b with
    | none => simp [e1] at e
    | some p =>
      obtain ⟨a, s⟩ := p
      cases e2 : readElems k n s with
      | none => simp [e1, e2] at e
      | some p =>
        obtain ⟨l, t⟩ := p
        simp only [e1, e2, Option.bind_eq_bind, Option.bind_some, Option.pure_def, Option.some.injEq, Prod.mk.injEq] at e
        rw [← e.1]
        intro x hx
        rcases List.mem_cons.1 hx with rfl | hx
        · unfold readVal at e1
          split at e1
          · rename_i hk
            simp only [Option.some.injEq, Prod.mk.injEq] at e1
            have := leVal_lt (b.take k)
            rw [e1.1] at this
            simpa [Nat.min_eq_left hk] using this
          · cases e1
        · exact ih s l t e2 x hx

/-- A count and then so many objects. -/
theorem canon_counted {wr : α → Stream} (rdn : Nat → Stream → Option (List α × Stream))
    (h : ∀ n b v r, rdn n b = some (v, r) → v.length = n ∧ b = (v.map wr).flatten ++ r ∧ ∀ q, rdn n ((v.map wr).flatten ++ q) = some (v, q)) :
    Canon (fun s => (readVal 8 s).bind fun p => rdn p.1 p.2) (fun l => writeVal 8 l.length ++ (l.map wr).flatten) := by
  intro b v r e
  dsimp only at e
  cases e1 : readVal 8 b with
  | none => rw [e1] at e; cases e
  | some x =>
    obtain ⟨n, s⟩ := x
    rw [e1] at e
    dsimp only [Option.bind_some] at e
    obtain ⟨g1, g2, g3⟩ := h n s v r e
    obtain ⟨k1, k2⟩ := canon_val 8 b n s e1
    subst g1
    refine ⟨by rw [k1, g2]; simp, fun q => ?_⟩
    dsimp only
    rw [List.append_assoc, k2]
    exact g3 q

theorem canon_vec (k : Nat) : Canon (readVec k) (writeVec k) :=
  canon_counted (wr := writeVal k) (readElems k) (fun n => elems_canon k n)

theorem readVec_lt (k : Nat) (b : Stream) (v : List Nat) (r : Stream) (e : readVec k b = some (v, r)) : ∀ x ∈ v, x < 256 ^ k := by
  unfold readVec at e
  cases e1 : readVal 8 b with
  | none => simp [e1] at e
  | some x =>
    simp only [e1, Option.bind_eq_bind, Option.bind_some] at e
    exact elems_lt k _ _ _ _ e

theorem canon_string : Canon readString writeString := by
  intro b v r e
  unfold readString at e
  cases e1 : readVal 8 b with
  | none => simp [e1] at e
  | some x =>
    obtain ⟨n, s⟩ := x
    simp only [e1, Option.bind_eq_bind, Option.bind_some] at e
    split at e
    case isFalse => cases e
    case isTrue h =>
      simp only [Option.some.injEq, Prod.mk.injEq] at e
      obtain ⟨rfl, rfl⟩ := e
      obtain ⟨k1, k2⟩ := canon_val 8 b n s e1
      have hl : (s.take n).length = n := by simp; omega
      refine ⟨?_, fun q => ?_⟩
      · unfold writeString
        rw [hl, List.append_assoc, List.take_append_drop, ← k1]
      · unfold readString writeString
        rw [hl, List.append_assoc, k2]
        simp only [Option.bind_eq_bind, Option.bind_some]
        rw [if_pos (by simp; omega), List.take_append_of_le_length (by omega), List.drop_append_of_le_length (by omega),
          List.take_of_length_le (by omega), List.drop_of_length_le (by omega)]
        rfl

/-- One object after the other. -/
theorem canon_pair {rd : Stream → Option (α × Stream)} {wr : α → Stream} {rd' : Stream → Option (β × Stream)} {wr' : β → Stream}
    (h : Canon rd wr) (h' : Canon rd' wr') :
    Canon (fun s => (rd s).bind fun p => (rd' p.2).bind fun p' => some ((p.1, p'.1), p'.2)) (fun x => wr x.1 ++ wr' x.2) := by
  intro b v r e
  dsimp only at e
  cases e1 : rd b with
  | none => rw [e1] at e; cases e
  | some x =>
    obtain ⟨a, s⟩ := x
    rw [e1] at e
    dsimp only [Option.bind_some] at e
    cases e2 : rd' s with
    | none => rw [e2] at e; cases e
    | some y =>
      obtain ⟨a', s'⟩ := y
      rw [e2] at e
      simp only [Option.bind_some, Option.some.injEq, Prod.mk.injEq] at e
      obtain ⟨rfl, rfl⟩ := e
      obtain ⟨k1, k2⟩ := h b a s e1
      obtain ⟨l1, l2⟩ := h' s a' s' e2
      refine ⟨by rw [k1, l1]; simp, fun q => ?_⟩
      dsimp only
      rw [List.append_assoc, k2]
      dsimp only [Option.bind_some]
      rw [l2]
      rfl

/-- The object kept is made from the object read. -/
theorem canon_map {rd : Stream → Option (α × Stream)} {wr : α → Stream} (h : Canon rd wr) (f : α → β) (wr' : β → Stream)
    (hf : ∀ b v r, rd b = some (v, r) → wr' (f v) = wr v) :
    Canon (fun s => (rd s).bind fun p => some (f p.1, p.2)) wr' := by
  intro b v r e
  dsimp only at e
  cases e1 : rd b with
  | none => rw [e1] at e; cases e
  | some x =>
    obtain ⟨a, s⟩ := x
    rw [e1] at e
    simp only [Option.bind_some, Option.some.injEq, Prod.mk.injEq] at e
    obtain ⟨rfl, rfl⟩ := e
    obtain ⟨k1, k2⟩ := h b a s e1
    have := hf b a s e1
    refine ⟨by rw [this]; exact k1, fun q => ?_⟩
    dsimp only
    rw [this, k2]
    rfl

theorem Canon.of_eq {rd rd' : Stream → Option (α × Stream)} {wr : α → Stream} (h : Canon rd' wr) (e : ∀ s, rd s = rd' s) : Canon rd wr := by
  have : rd = rd' := funext e
  rw [this]; exact h

theorem Canon.of_wr {rd : Stream → Option (α × Stream)} {wr wr' : α → Stream} (h : Canon rd wr) (e : ∀ v, wr' v = wr v) : Canon rd wr' := by
  have : wr' = wr := funext e
  rw [this]; exact h

end Verif.Serial

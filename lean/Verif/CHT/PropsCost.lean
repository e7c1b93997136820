/-
Property theorems C113: the accesses to the slots that `get`, `set` and `erase` make.
-/
import Verif.CHT.Cost
import Verif.CHT.PropsSafe

namespace Verif.CHT
open Verif.Bits Verif.Fit
open Verif.IArr (M acc Runs)

/-- `ks` are distinct keys that `get` reports; with their buckets, and with that of `k`, they all lie among a row of consecutive buckets from `a` on (`bucket()` is followed by 0),
and the row is no longer than the number of these keys. -/
structure Crowd (P : Par) (kb : Nat) (t : Tab) (a : Nat) (ks : List Nat) (k : Nat) : Prop where
  distinct : ks.Nodup
  reported : ∀ x ∈ ks, x < 2 ^ kb ∧ ∃ v, t.get P x = some (true, v)
  near : ∀ x ∈ ks, ∃ y j, P.hash kb x = some y ∧ j < ks.length ∧ y % t.bucket = (a + j) % t.bucket
  own : ∃ y j, P.hash kb k = some y ∧ j ≤ ks.length ∧ y % t.bucket = (a + j) % t.bucket
  few : ks.length ≤ t.used

variable {P : Par} {kb vw : Nat} {t : Tab} {M' : Nat → Option Nat} {s : Nat} {home : Nat → Nat}

theorem filled_stretch {f : Nat → Slot} {c : Nat} : ∀ {b : Nat}, c ≤ b → (∀ q, c ≤ q → q < b → (f q).fil) → b - c ≤ filled f b
  | 0, _, _ => by omega
  | b + 1, h, hf => by
    by_cases hc : c = b + 1
    · omega
    · have := filled_stretch (f := f) (c := c) (b := b) (by omega) (fun q h1 h2 => hf q h1 (by omega))
      rw [filled, if_pos (hf b (by omega) (by omega))]
      omega

/-- A row of filled slots that begins with one that is not shifted. -/
theorem At.crowd (G : Good P kb) (w : WT kb vw t) (A : At P kb vw t M' s home) {c b h k y : Nat} (hcb : c ≤ b) (hb : b ≤ t.bucket) (hsh : (view kb t s c).sh = false)
    (hall : ∀ q, c ≤ q → q < b → (view kb t s q).fil) (hk : P.hash kb k = some y) (hy : (s + h) % t.bucket = y % t.bucket) (hch : c ≤ h) (hhb : h ≤ b) :
    ∃ ks, ks.length = b - c ∧ Crowd P kb t ((s + c) % t.bucket) ks k := by
  have L := A.lay
  have hkey : ∀ p, p < t.bucket → (view kb t s p).fil → ∃ x, x < 2 ^ kb ∧ (P.ihash kb (code kb t s home p)).getD 0 = x ∧ P.hash kb x = some (code kb t s home p) := by
    intro p hp hf
    obtain ⟨x, hx, e1, e2⟩ := G.bwd _ (A.range p hp hf)
    exact ⟨x, hx, by rw [e1]; rfl, e2⟩
  have hlen : ((List.range (b - c)).map (fun j => (P.ihash kb (code kb t s home (c + j))).getD 0)).length = b - c := by simp
  refine ⟨(List.range (b - c)).map (fun j => (P.ihash kb (code kb t s home (c + j))).getD 0), hlen, ⟨?_, ?_, ?_, ?_, ?_⟩⟩
  · refine List.Nodup.map_on ?_ List.nodup_range
    intro i hi j hj e
    rw [List.mem_range] at hi hj
    have fi := hall (c + i) (by omega) (by omega)
    have fj := hall (c + j) (by omega) (by omega)
    obtain ⟨x, _, e1, e2⟩ := hkey (c + i) (by omega) fi
    obtain ⟨x', _, e1', e2'⟩ := hkey (c + j) (by omega) fj
    simp only [e1, e1'] at e
    rw [e, e2'] at e2
    have := code_inj w A (by omega) (by omega) fj fi (Option.some.inj e2).symm
    omega
  · intro x hx
    obtain ⟨j, hj, rfl⟩ := List.mem_map.1 hx
    rw [List.mem_range] at hj
    have fj := hall (c + j) (by omega) (by omega)
    obtain ⟨x, hx, e1, e2⟩ := hkey (c + j) (by omega) fj
    have hM : M' x = some (vals vw t s (c + j)) := (A.has x hx _).2 ⟨c + j, by omega, fj, e2, rfl⟩
    simp only [e1]
    refine ⟨hx, vals vw t s (c + j), ?_⟩
    rw [get_spec G w A hx, hM]
    rfl
  · intro x hx
    rw [hlen]
    obtain ⟨j, hj, rfl⟩ := List.mem_map.1 hx
    rw [List.mem_range] at hj
    have fj := hall (c + j) (by omega) (by omega)
    obtain ⟨x, hx, e1, e2⟩ := hkey (c + j) (by omega) fj
    have fc := hall c (Nat.le_refl _) (by omega)
    have h1 := L.le (c + j) (by omega) fj
    have h2 := L.mono c (c + j) (by omega) (by omega) fc fj
    have h3 : home c = c := by
      have h4 := L.le c (by omega) fc
      by_contra hne
      have := (L.sh c (by omega)).2 ⟨fc, by omega⟩
      rw [hsh] at this
      simp at this
    simp only [e1]
    refine ⟨_, home (c + j) - c, e2, by omega, ?_⟩
    unfold code
    rw [Nat.add_comm, Nat.add_mul_mod_self_right, Nat.mod_mod, Nat.mod_add_mod]
    congr 1
    omega
  · refine ⟨y, h - c, hk, by rw [hlen]; omega, ?_⟩
    rw [← hy, Nat.mod_add_mod]
    congr 1
    omega
  · rw [hlen, A.count]
    exact Nat.le_trans (filled_stretch hcb hall) (filled_mono _ hb)

/-- The search of `get`, `set` and `erase` for an element with quotient `q` in the run of bucket `h`. -/
theorem At.find_cost (w : WT kb vw t) (A : At P kb vw t M' s home) {h : Nat} (hh : h < t.bucket) (ho : (view kb t s h).occ = true) (q : Nat) :
    ∃ c b i r n, c ≤ h ∧ h < b ∧ b ≤ t.bucket ∧ (view kb t s c).sh = false ∧ (∀ g, c ≤ g → g < b → (view kb t s g).fil) ∧
      Runs (t.headC ((s + h) % t.bucket)) i n ∧ t.head ((s + h) % t.bucket) = some i ∧ t.find q t.bucket i = some r ∧
      ((∃ p m, p < t.bucket ∧ (view kb t s p).fil ∧ home p = h ∧ (view kb t s p).quo = q ∧ r = ((s + p) % t.bucket, true) ∧ Runs (t.findC q t.bucket i) r m ∧ n + m + 1 ≤ 3 * (b - c)) ∨
       (∃ m, Tail t.bucket (view kb t s) home h b ∧ (∀ p, p < t.bucket → (view kb t s p).fil → ¬ (home p = h ∧ (view kb t s p).quo = q)) ∧
          r = ((s + b) % t.bucket, false) ∧ Runs (t.findC q t.bucket i) r m ∧ n + m ≤ 3 * (b - c))) := by
  have L := A.lay
  obtain ⟨i, H⟩ := exists_head (B := t.bucket) (f := view kb t s) (home := home) h hh
  obtain ⟨hi, hfi, hhi⟩ := H.occ L hh ho
  obtain ⟨c, hc, hcs, hall, hr⟩ := head_runs w L hh H
  have hle := H.le
  rcases find_runs w L h q t.bucket i hi (by omega) hfi hhi with ⟨p, h1, h2, h3, h4, h5, h6⟩ | ⟨e, h1, h2, h3, h4, h5⟩
  · refine ⟨c, p + 1, _, _, _, hc, by omega, by omega, hcs, ?_, hr, head_spec w L hh H, find_value h6, .inl ⟨p, _, h2, h3 p h1 (Nat.le_refl _), h4, h5, rfl, h6, by omega⟩⟩
    intro g g1 g2
    by_cases hgi : g < i
    · exact hall g g1 hgi
    · exact h3 g (by omega) (by omega)
  · refine ⟨c, e, _, _, _, hc, by omega, h2, hcs, ?_, hr, head_spec w L hh H, find_value h5, .inr ⟨_, ⟨by omega, h2, ?_, h4⟩, ?_, rfl, h5, by omega⟩⟩
    · intro g g1 g2
      by_cases hgi : g < i
      · exact hall g g1 hgi
      · exact (h3 g (by omega) g2).1
    · intro g g1 g2
      by_cases hgi : g < i
      · have := H.pre g g1 hgi
        exact ⟨this.1, by omega⟩
      · have := h3 g (by omega) g2
        exact ⟨this.1, by omega⟩
    · rintro p hp hf ⟨g1, g2⟩
      by_cases hpi : p < i
      · have := H.before L hf hpi
        omega
      · by_cases hpe : p < e
        · exact (h3 p (by omega) hpe).2.2 g2
        · have := h4 p hp hf (by omega)
          omega

theorem get_cost (G : Good P kb) (w : WT kb vw t) (A : At P kb vw t M' s home) {k : Nat} (hk : k < 2 ^ kb) :
    ∃ a ks r n, t.get P k = some r ∧ Runs (t.getC P k) r n ∧ Crowd P kb t a ks k ∧ n ≤ 3 * ks.length + 1 := by
  obtain ⟨y, hy, e1, _⟩ := G.fwd k hk
  obtain ⟨p1, p2, _⟩ := hash_parts w hy
  obtain ⟨h, hh, hhy⟩ := exists_off w.pos s (y % t.bucket) (Nat.mod_lt _ w.pos)
  obtain ⟨x, hx, ho, _⟩ := read_view w s h
  rw [hhy] at hx
  have hg := get_spec G w A hk
  have key : ∀ r n, Runs (if isOcc x = true then (do
      let i ← t.headC (y % t.bucket)
      let r ← t.findC (y / t.bucket) t.bucket i
      if r.2 = true then do
        let v ← acc (t.values.get r.1)
        pure (true, v)
      else pure (false, 0)) else pure (false, 0)) r n → Runs (t.getC P k) r (1 + n) := by
    intro r n hr
    unfold Tab.getC
    refine ((runs_lift (r := P.hash t.keyBits k) (x := y) (by rw [w.keyBits]; exact e1)).bind (n' := 1 + n) ?_).cast (by omega)
    rw [p1, p2]
    exact (runs_acc hx).bind hr
  rw [ho] at key
  by_cases hocc : (view kb t s h).occ = true
  · rw [if_pos hocc] at key
    obtain ⟨c, b, i, r, n, h1, h2, h3, h4, h5, h6, hv1, hv2, h7⟩ := A.find_cost w hh hocc (y / t.bucket)
    rw [hhy] at h6
    obtain ⟨ks, hks, hC⟩ := A.crowd G w (show c ≤ b by omega) h3 h4 h5 e1 hhy h1 (by omega)
    rcases h7 with ⟨p, m, g1, g2, g3, g4, g5, g6, g7⟩ | ⟨m, g1, g2, g3, g4, g5⟩
    · have hM : M' k = some (vals vw t s p) := (A.has k hk _).2 ⟨p, g1, g2, by rw [e1, (code_iff A hh hhy g1 g2).2 ⟨g4, g3⟩], rfl⟩
      rw [hM] at hg
      refine ⟨_, ks, _, _, hg, key _ _ (h6.bind (g6.bind (n' := 1) ?_)), hC, ?_⟩
      · rw [g5, if_pos rfl]
        exact (runs_acc (get_val w (idx_lt w (s + p)))).bind (n' := 0) (Runs.pure _)
      · rw [hks]
        omega
    · have hM : M' k = none := by
        cases hM : M' k with
        | none => rfl
        | some v =>
          obtain ⟨p, q1, q2, q3, _⟩ := (A.has k hk v).1 hM
          rw [e1] at q3
          have := (code_iff A hh hhy q1 q2).1 (Option.some.inj q3)
          exact absurd ⟨this.2, this.1⟩ (g2 p q1 q2)
      rw [hM] at hg
      refine ⟨_, ks, _, _, hg, key _ _ (h6.bind (g4.bind (n' := 0) ?_)), hC, ?_⟩
      · rw [g3]
        exact Runs.pure _
      · rw [hks]
        omega
  · rw [if_neg hocc] at key
    have hM : M' k = none := by
      cases hM : M' k with
      | none => rfl
      | some v =>
        obtain ⟨p, q1, q2, q3, _⟩ := (A.has k hk v).1 hM
        rw [e1] at q3
        have := (code_iff A hh hhy q1 q2).1 (Option.some.inj q3)
        exact absurd ((A.lay.occ h hh).2 ⟨p, q1, q2, this.2⟩) hocc
    rw [hM] at hg
    refine ⟨y, [], _, _, hg, key _ _ (Runs.pure _), ⟨List.nodup_nil, by simp, by simp, ⟨y, 0, e1, Nat.le_refl _, rfl⟩, Nat.zero_le _⟩, Nat.le_refl _⟩

theorem put_cost (G : Good P kb) (w : WT kb vw t) (A : At P kb vw t M' s home) (hu : t.used < t.bucket) {k v : Nat} (hk : k < 2 ^ kb) (hv : v < 2 ^ vw) :
    ∃ a ks r n, t.put P k v = some r ∧ Runs (t.putC P k v) r n ∧ Crowd P kb t a ks k ∧ n ≤ 6 * ks.length + 9 := by
  obtain ⟨t', e', _⟩ := put_spec G w A hu hk hv
  obtain ⟨s, home, A, hlast⟩ := A.nullLast w hu
  obtain ⟨y, hy, e1, _⟩ := G.fwd k hk
  obtain ⟨p1, p2, _⟩ := hash_parts w hy
  obtain ⟨h, hh, hhy⟩ := exists_off w.pos s (y % t.bucket) (Nat.mod_lt _ w.pos)
  obtain ⟨x, hx, ho, _⟩ := read_view w s h
  rw [hhy] at hx
  have hB := w.pos
  have hnull : ∀ e, (e ≤ t.bucket - 1) → ∃ y0, e ≤ y0 ∧ y0 < t.bucket ∧ ¬ (view kb t s y0).fil ∧ ∀ q, e ≤ q → q < y0 → (view kb t s q).fil := by
    have key : ∀ d e, e + d = t.bucket - 1 → ∃ y0, e ≤ y0 ∧ y0 < t.bucket ∧ ¬ (view kb t s y0).fil ∧ ∀ q, e ≤ q → q < y0 → (view kb t s q).fil := by
      intro d
      induction d with
      | zero =>
        intro e he
        exact ⟨e, Nat.le_refl _, by omega, by rw [show e = t.bucket - 1 by omega]; exact hlast, fun q h1 h2 => by omega⟩
      | succ d ih =>
        intro e he
        by_cases hf : (view kb t s e).fil
        · obtain ⟨y0, h1, h2, h3, h4⟩ := ih (e + 1) (by omega)
          refine ⟨y0, by omega, h2, h3, ?_⟩
          intro q g1 g2
          by_cases hq : q = e
          · rw [hq]; exact hf
          · exact h4 q (by omega) g2
        · exact ⟨e, Nat.le_refl _, by omega, hf, fun q h1 h2 => by omega⟩
    intro e he
    exact key (t.bucket - 1 - e) e (by omega)
  have key : ∀ i m r n, Runs (t.headC (y % t.bucket)) i m → Runs (if isOcc x = true then (do
      let r ← t.findC (y / t.bucket) t.bucket i
      if r.2 = true then t.assignC r.1 v else t.insertC (y % t.bucket) r.1 (y / t.bucket) v) else t.insertC (y % t.bucket) i (y / t.bucket) v) r n →
      Runs (t.putC P k v) r (m + 1 + n) := by
    intro i m r n hi hr
    unfold Tab.putC
    refine ((runs_lift (r := P.hash t.keyBits k) (x := y) (by rw [w.keyBits]; exact e1)).bind (n' := m + (1 + n)) ?_).cast (by omega)
    rw [p1, p2]
    exact hi.bind ((runs_acc hx).bind hr)
  have e'' := e'
  unfold Tab.put at e''
  simp only [w.keyBits, e1, Option.bind_eq_bind, Option.bind_some, p1, p2] at e''
  by_cases hocc : (view kb t s h).occ = true
  · simp only [ho, if_pos hocc] at key
    obtain ⟨c, b, i, r, n, h1, h2, h3, h4, h5, h6, hv1, hv2, h7⟩ := A.find_cost w hh hocc (y / t.bucket)
    rw [hhy] at h6 hv1
    rw [hv1, Option.bind_some, hx, Option.bind_some, ho, if_pos hocc, hv2, Option.bind_some] at e''
    rcases h7 with ⟨p, m, g1, g2, g3, g4, g5, g6, g7⟩ | ⟨m, g1, g2, g3, g4, g5⟩
    · rw [g5] at e''
      simp only [if_true] at e''
      obtain ⟨n', hn', hr⟩ := assign_runs e''
      obtain ⟨ks, hks, hC⟩ := A.crowd G w (show c ≤ b by omega) h3 h4 h5 e1 hhy h1 (by omega)
      refine ⟨_, ks, t', _, e', key i n t' (m + n') h6 (g6.bind ?_), hC, by omega⟩
      rw [g5, if_pos rfl]
      exact hr
    · rw [g3] at e''
      simp only [Bool.false_eq_true, if_false] at e''
      have hbB : b ≤ t.bucket - 1 := by
        by_contra hlt
        exact hlast (h5 (t.bucket - 1) (by omega) (by omega))
      obtain ⟨y0, q1, q2, q3, q4⟩ := hnull b hbB
      obtain ⟨n', hn', hr⟩ := insert_runs w q1 q2 q3 q4 e''
      have hall : ∀ g, c ≤ g → g < y0 → (view kb t s g).fil := by
        intro g z1 z2
        by_cases hgb : g < b
        · exact h5 g z1 hgb
        · exact q4 g (by omega) z2
      obtain ⟨ks, hks, hC⟩ := A.crowd G w (show c ≤ y0 by omega) (by omega) h4 hall e1 hhy h1 (by omega)
      refine ⟨_, ks, t', _, e', key i n t' (m + n') h6 (g4.bind ?_), hC, by omega⟩
      rw [g3]
      exact hr
  · simp only [ho, if_neg hocc] at key
    obtain ⟨i, H⟩ := exists_head (B := t.bucket) (f := view kb t s) (home := home) h hh
    obtain ⟨c, hc, hcs, hall, hr⟩ := head_runs w A.lay hh H
    have hv1 := head_spec w A.lay hh H
    rw [hhy] at hr hv1
    rw [hv1, Option.bind_some, hx, Option.bind_some, ho, if_neg hocc] at e''
    have hle := H.le
    have hleB := H.leB
    have hiB : i ≤ t.bucket - 1 := by
      by_contra hlt
      exact hlast (hall (t.bucket - 1) (by omega) (by omega))
    obtain ⟨y0, q1, q2, q3, q4⟩ := hnull i hiB
    obtain ⟨n', hn', hr'⟩ := insert_runs w q1 q2 q3 q4 e''
    have hall' : ∀ g, c ≤ g → g < y0 → (view kb t s g).fil := by
      intro g z1 z2
      by_cases hgb : g < i
      · exact hall g z1 hgb
      · exact q4 g (by omega) z2
    obtain ⟨ks, hks, hC⟩ := A.crowd G w (show c ≤ y0 by omega) (by omega) hcs hall' e1 hhy hc (by omega)
    exact ⟨_, ks, t', _, e', key _ _ t' n' hr hr', hC, by omega⟩

theorem eraseIn_cost (G : Good P kb) (w : WT kb vw t) (A : At P kb vw t M' s home) {k : Nat} (hk : k < 2 ^ kb) (hbb : t.bucketBits ≠ 0) :
    ∃ a ks r n, t.eraseIn P k = some r ∧ Runs (t.eraseInC P k) r n ∧ Crowd P kb t a ks k ∧ n ≤ 3 * ks.length + 3 := by
  obtain ⟨t', e', _⟩ := eraseIn_spec G w A hk hbb
  obtain ⟨y, hy, e1, _⟩ := G.fwd k hk
  obtain ⟨p1, p2, _⟩ := hash_parts w hy
  obtain ⟨h, hh, hhy⟩ := exists_off w.pos s (y % t.bucket) (Nat.mod_lt _ w.pos)
  obtain ⟨x, hx, ho, _⟩ := read_view w s h
  rw [hhy] at hx
  have e'' := e'
  unfold Tab.eraseIn Tab.eraseQuo at e''
  simp only [w.keyBits, e1, Option.bind_eq_bind, Option.bind_some, p2, if_neg hbb, hx, ho, Option.pure_def] at e''
  have key : ∀ r n, Runs (if isOcc x = true then (do
      let i ← t.headC (y % t.bucket)
      let r ← t.findC (y / t.bucketBits) t.bucket i
      if r.2 = true then do
        let w ← acc (t.arr.get r.1)
        if isDel w = true then pure t
        else do
          let w' ← acc (t.arr.get r.1)
          let arr ← acc (t.arr.set r.1 (w' ||| kDel))
          pure { t with arr := arr, size := (t.size + 2 ^ 64 - 1) % 2 ^ 64 }
      else pure t) else pure t) r n → Runs (t.eraseInC P k) r (1 + n) := by
    intro r n hr
    unfold Tab.eraseInC
    refine ((runs_lift (r := P.hash t.keyBits k) (x := y) (by rw [w.keyBits]; exact e1)).bind (n' := 1 + n) ?_).cast (by omega)
    refine ((runs_lift (r := t.eraseQuo y) (x := y / t.bucketBits) (by unfold Tab.eraseQuo; rw [if_neg hbb])).bind (n' := 1 + n) ?_).cast (by omega)
    rw [p2]
    exact (runs_acc hx).bind hr
  rw [ho] at key
  by_cases hocc : (view kb t s h).occ = true
  · rw [if_pos hocc] at key e''
    obtain ⟨c, b, i, r, n, h1, h2, h3, h4, h5, h6, hv1, hv2, h7⟩ := A.find_cost w hh hocc (y / t.bucketBits)
    rw [hhy] at h6 hv1
    rw [hv1, Option.bind_some, hv2, Option.bind_some] at e''
    obtain ⟨ks, hks, hC⟩ := A.crowd G w (show c ≤ b by omega) h3 h4 h5 e1 hhy h1 (by omega)
    rcases h7 with ⟨p, m, g1, g2, g3, g4, g5, g6, g7⟩ | ⟨m, g1, g2, g3, g4, g5⟩
    · rw [g5] at e''
      simp only [if_true] at e''
      obtain ⟨z, hz, e''⟩ := Option.bind_eq_some_iff.1 e''
      by_cases hd : isDel z = true
      · rw [if_pos hd] at e''
        refine ⟨_, ks, t', _, e', key t' (n + (m + (1 + 0))) (h6.bind (g6.bind ?_)), hC, by omega⟩
        rw [g5, if_pos rfl]
        refine (runs_acc hz).bind ?_
        rw [if_pos hd]
        exact (Option.some.inj e'') ▸ Runs.pure _
      · rw [if_neg hd] at e''
        obtain ⟨ar, har, e''⟩ := Option.bind_eq_some_iff.1 e''
        refine ⟨_, ks, t', _, e', key t' (n + (m + (1 + (1 + (1 + 0))))) (h6.bind (g6.bind ?_)), hC, by omega⟩
        rw [g5, if_pos rfl]
        refine (runs_acc hz).bind ?_
        rw [if_neg hd]
        refine (runs_acc hz).bind ((runs_acc har).bind ?_)
        rw [← Option.some.inj e'', ← w.keyBits]
        exact Runs.pure _
    · rw [g3] at e''
      simp only [Bool.false_eq_true, if_false] at e''
      refine ⟨_, ks, t', _, e', key t' (n + (m + 0)) (h6.bind (g4.bind ?_)), hC, by omega⟩
      rw [g3]
      exact (Option.some.inj e'') ▸ Runs.pure _
  · rw [if_neg hocc] at key e''
    rw [← Option.some.inj e''] at e'
    exact ⟨y, [], t, _, e', key _ _ (Runs.pure _), ⟨List.nodup_nil, by simp, by simp, ⟨y, 0, e1, Nat.le_refl _, rfl⟩, Nat.zero_le _⟩, by simp⟩

/-- C113: after any history of `set`, `erase` and `reserve` that returned, `get(k)` makes at most `3 K + 1` accesses, where `K` is the number of distinct keys that it would report
and that crowd together around the bucket of `k`: their buckets lie in a row of `K` buckets that reaches the bucket of `k`. -/
theorem C113_get (P : Par) (kb vw b d : Nat) (cs : List Call)
    (hash : ∀ x, x < 2 ^ kb → ∃ y, y < 2 ^ kb ∧ P.hash kb x = some y ∧ P.ihash kb y = some x)
    (ihash : ∀ y, y < 2 ^ kb → ∃ x, x < 2 ^ kb ∧ P.ihash kb y = some x ∧ P.hash kb x = some y)
    (hb : b < 64) (hv1 : 1 ≤ vw) (hv63 : vw ≤ 63) (hv : P.vbits = vw ∨ P.vbits = 0)
    (hset : ∀ k v, Call.set k v ∈ cs → k < 2 ^ kb ∧ v < 2 ^ vw) (her : ∀ k, Call.erase k ∈ cs → k < 2 ^ kb)
    (t t' : Tab) (e : start P kb (2 ^ b) vw = some t) (e' : calls P d t cs = some t') (k : Nat) (hk : k < 2 ^ kb) :
    ∃ a ks r n, t'.get P k = some r ∧ Runs (t'.getC P k) r n ∧ Crowd P kb t' a ks k ∧ n ≤ 3 * ks.length + 1 := by
  have G : Good P kb := ⟨hash, ihash⟩
  have V : Width P vw := ⟨hv1, hv63, hv⟩
  obtain ⟨M, ⟨w, s, home, A⟩, _⟩ := calls_safe G V (start_safe V hb e) d cs hset her t' e'
  exact get_cost G w A hk

/-- C113: a `set` that does not make the table grow returns, with at most `6 K + 9` accesses. -/
theorem C113_set (P : Par) (kb vw b d : Nat) (cs : List Call)
    (hash : ∀ x, x < 2 ^ kb → ∃ y, y < 2 ^ kb ∧ P.hash kb x = some y ∧ P.ihash kb y = some x)
    (ihash : ∀ y, y < 2 ^ kb → ∃ x, x < 2 ^ kb ∧ P.ihash kb y = some x ∧ P.hash kb x = some y)
    (hb : b < 64) (hv1 : 1 ≤ vw) (hv63 : vw ≤ 63) (hv : P.vbits = vw ∨ P.vbits = 0)
    (hset : ∀ k v, Call.set k v ∈ cs → k < 2 ^ kb ∧ v < 2 ^ vw) (her : ∀ k, Call.erase k ∈ cs → k < 2 ^ kb)
    (t t' : Tab) (e : start P kb (2 ^ b) vw = some t) (e' : calls P d t cs = some t') (hf : t'.filled = false) (hu : t'.used < t'.bucket)
    (k v : Nat) (hk : k < 2 ^ kb) (hkv : v < 2 ^ vw) :
    ∃ a ks t'' n, t'.set P false k v = some t'' ∧ Runs (t'.putC P k v) t'' n ∧ Crowd P kb t' a ks k ∧ n ≤ 6 * ks.length + 9 := by
  have G : Good P kb := ⟨hash, ihash⟩
  have V : Width P vw := ⟨hv1, hv63, hv⟩
  obtain ⟨M, ⟨w, s, home, A⟩, _⟩ := calls_safe G V (start_safe V hb e) d cs hset her t' e'
  obtain ⟨a, ks, t'', n, h1, h2⟩ := put_cost G w A hu hk hkv
  refine ⟨a, ks, t'', n, ?_, h2⟩
  rw [Tab.set, setD, hf]
  exact h1

/-- C113: an `erase` that does not make the table grow returns, with at most `3 K + 3` accesses (with one bucket it divides by zero). -/
theorem C113_erase (P : Par) (kb vw b d : Nat) (cs : List Call)
    (hash : ∀ x, x < 2 ^ kb → ∃ y, y < 2 ^ kb ∧ P.hash kb x = some y ∧ P.ihash kb y = some x)
    (ihash : ∀ y, y < 2 ^ kb → ∃ x, x < 2 ^ kb ∧ P.ihash kb y = some x ∧ P.hash kb x = some y)
    (hb : b < 64) (hv1 : 1 ≤ vw) (hv63 : vw ≤ 63) (hv : P.vbits = vw ∨ P.vbits = 0)
    (hset : ∀ k v, Call.set k v ∈ cs → k < 2 ^ kb ∧ v < 2 ^ vw) (her : ∀ k, Call.erase k ∈ cs → k < 2 ^ kb)
    (t t' : Tab) (e : start P kb (2 ^ b) vw = some t) (e' : calls P d t cs = some t') (hm : t'.size ≠ t'.minSize) (hB : t'.bucket ≠ 1)
    (k : Nat) (hk : k < 2 ^ kb) :
    ∃ a ks t'' n, t'.erase P false k = some t'' ∧ Runs (t'.eraseInC P k) t'' n ∧ Crowd P kb t' a ks k ∧ n ≤ 3 * ks.length + 3 := by
  have G : Good P kb := ⟨hash, ihash⟩
  have V : Width P vw := ⟨hv1, hv63, hv⟩
  obtain ⟨M, ⟨w, s, home, A⟩, _⟩ := calls_safe G V (start_safe V hb e) d cs hset her t' e'
  obtain ⟨a, ks, t'', n, h1, h2⟩ := eraseIn_cost G w A hk (fun h => hB (by rw [w.bucket, h]; rfl))
  refine ⟨a, ks, t'', n, ?_, h2⟩
  rw [Tab.erase, Tab.eraseD, if_neg hm]
  exact h1

/-- The accesses of a counted run. -/
def count {β : Type} (m : M β) : Nat := ((m 0).map Prod.snd).getD 0

/-- A history with neighbours in the same bucket. -/
def near : List Call := [.set 17 1, .set 23 2, .set 39 3]

theorem near_hash : (∀ x, x < 2 ^ 6 → ∃ y, y < 2 ^ 6 ∧ (defaultPar 5).hash 6 x = some y ∧ (defaultPar 5).ihash 6 y = some x) ∧
    ∀ y, y < 2 ^ 6 → ∃ x, x < 2 ^ 6 ∧ (defaultPar 5).ihash 6 y = some x ∧ (defaultPar 5).hash 6 x = some y :=
  ⟨fun x hx => by obtain ⟨y, h1, h2, h3⟩ := Hash.C43_ihash_hash 6 x (by omega) hx; exact ⟨y, h2, h1, h3⟩,
    fun y hy => by obtain ⟨x, h1, h2, h3⟩ := Hash.C43_hash_ihash 6 y (by omega) hy; exact ⟨x, h2, h1, h3⟩⟩

/-- The history `near` meets the hypotheses of the three theorems. -/
example : ∃ t t', start (defaultPar 5) 6 8 5 = some t ∧ calls (defaultPar 5) 3 t near = some t' ∧
    (count (t'.getC (defaultPar 5) 39), count (t'.putC (defaultPar 5) 22 1), count (t'.eraseInC (defaultPar 5) 23)) = (6, 21, 6) ∧
    (∃ a ks r n, t'.get (defaultPar 5) 39 = some r ∧ Runs (t'.getC (defaultPar 5) 39) r n ∧ Crowd (defaultPar 5) 6 t' a ks 39 ∧ n ≤ 3 * ks.length + 1) ∧
    (∃ a ks t'' n, t'.set (defaultPar 5) false 22 1 = some t'' ∧ Runs (t'.putC (defaultPar 5) 22 1) t'' n ∧ Crowd (defaultPar 5) 6 t' a ks 22 ∧ n ≤ 6 * ks.length + 9) ∧
    ∃ a ks t'' n, t'.erase (defaultPar 5) false 23 = some t'' ∧ Runs (t'.eraseInC (defaultPar 5) 23) t'' n ∧ Crowd (defaultPar 5) 6 t' a ks 23 ∧ n ≤ 3 * ks.length + 3 := by
  have h : ((start (defaultPar 5) 6 8 5).bind (fun t => (calls (defaultPar 5) 3 t near).map (fun t' =>
      (t'.filled, [t'.used, t'.bucket, t'.size, t'.minSize, count (t'.getC (defaultPar 5) 39), count (t'.putC (defaultPar 5) 22 1), count (t'.eraseInC (defaultPar 5) 23)])))) =
      some (false, [3, 8, 3, 1, 6, 21, 6]) := by decide +kernel
  obtain ⟨t, e1, h⟩ := Option.bind_eq_some_iff.1 h
  obtain ⟨t', e2, h⟩ := Option.map_eq_some_iff.1 h
  simp only [Prod.mk.injEq, List.cons.injEq, and_true] at h
  have H3 : ∀ k v, Call.set k v ∈ near → k < 2 ^ 6 ∧ v < 2 ^ 5 := by
    intro k v h
    simp [near] at h
    omega
  have H4 : ∀ k, Call.erase k ∈ near → k < 2 ^ 6 := by
    intro k h
    simp [near] at h
  refine ⟨t, t', e1, e2, by rw [h.2.2.2.2.2.1, h.2.2.2.2.2.2.1, h.2.2.2.2.2.2.2], ?_, ?_, ?_⟩
  · exact C113_get (defaultPar 5) 6 5 3 3 near near_hash.1 near_hash.2 (by decide) (by decide) (by decide) (.inl rfl) H3 H4 t t' e1 e2 39 (by decide)
  · exact C113_set (defaultPar 5) 6 5 3 3 near near_hash.1 near_hash.2 (by decide) (by decide) (by decide) (.inl rfl) H3 H4 t t' e1 e2 h.1 (by omega) 22 1 (by decide) (by decide)
  · exact C113_erase (defaultPar 5) 6 5 3 3 near near_hash.1 near_hash.2 (by decide) (by decide) (by decide) (.inl rfl) H3 H4 t t' e1 e2 (by omega) (by omega) 23 (by decide)

end Verif.CHT

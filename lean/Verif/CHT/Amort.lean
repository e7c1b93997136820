/-
The elements that `set` places, those moved by growth included. Each run of lines 118-170, one evaluation of the hash and one search, counts once.
-/
import Verif.CHT.Cost
import Verif.CHT.PropsRoom

namespace Verif.CHT
open Verif.Bits Verif.Fit
open Verif.IArr (M acc Runs Counts)

/-- CHT.hpp:256-260 with the placements of the inner `set`. -/
def Tab.copyOneC (P : Par) (t : Tab) (setF : Tab → Nat → Nat → M Tab) (w i : Nat) (f : Option Nat) (next : Tab) : M Tab :=
  if isDel w then pure next
  else do
    let f ← (f : M Nat)
    let x ← (P.ihash t.keyBits ((t.quo w <<< t.bucketBits) ||| f) : M Nat)
    let v ← (t.values.get i : M Nat)
    setF next x v

/-- The loop over a cluster with the placements, CHT.hpp:247-263. -/
def Tab.clusterC (P : Par) (t : Tab) (setF : Tab → Nat → Nat → M Tab) : (fuel i cnt : Nat) → List Nat → Option Nat → Tab → M (Nat × Nat × Tab)
  | 0, _, _, _, _, _ => fun _ => none
  | n + 1, i, cnt, qs, f, next => do
    let w ← (t.arr.get i : M Nat)
    let r ← (pop w i qs f : M (Option Nat × List Nat))
    let next ← t.copyOneC P setF w i r.1 next
    let w ← (t.arr.get (t.succ i) : M Nat)
    if isSh w then t.clusterC P setF n (t.succ i) (cnt + 1) r.2 r.1 next else pure (t.succ i, cnt + 1, next)

/-- The outer loop of `_resize` with the placements, CHT.hpp:241-264. -/
def Tab.clustersC (P : Par) (t : Tab) (setF : Tab → Nat → Nat → M Tab) : (fuel i cnt : Nat) → Tab → M Tab
  | 0, _, cnt, next => if cnt < t.used then fun _ => none else pure next
  | n + 1, i, cnt, next =>
    if cnt < t.used then do
      let i ← (t.skip t.bucket i : M Nat)
      let r ← t.clusterC P setF t.bucket i cnt [] none next
      t.clustersC P setF n r.1 r.2.1 r.2.2
    else pure next

/-- `_resize` with the placements, CHT.hpp:235-266. -/
def Tab.resizeC (P : Par) (strict : Bool) (setF : Tab → Nat → Nat → M Tab) (t : Tab) (newBucket : Nat) : M Tab := do
  let next ← (t.fresh P strict newBucket : M Tab)
  t.clustersC P setF t.used 0 0 next

/-- `reserve` with the placements, CHT.hpp:223-229. -/
def Tab.reserveWithC (P : Par) (strict : Bool) (setF : Tab → Nat → Nat → M Tab) (t : Tab) (n : Nat) : M Tab :=
  if n ≤ t.size then pure t
  else
    let need := n * (100 - 1) % 2 ^ 64 / P.load + 1
    let bits := 64 - clz64 (BitVec.ofNat 64 (need - 1))
    if bits < 64 then t.resizeC P strict setF (2 ^ bits) else fun _ => none

/-- `set` with the placements, CHT.hpp:110-170; lines 118-170 count once. -/
def setDC (P : Par) (strict : Bool) : Nat → Tab → Nat → Nat → M Tab
  | 0, _, _, _ => fun _ => none
  | d + 1, t, key, value => do
    let t ← if t.filled then t.reserveWithC P strict (setDC P strict d) (t.size * 2 % 2 ^ 64) else pure t
    acc (t.put P key value)

/-- `set` with the placements. -/
def Tab.setC (P : Par) (strict : Bool) (t : Tab) (key value : Nat) : M Tab := setDC P strict 3 t key value

/-- Calls of `set` one after the other. -/
def setsC (P : Par) : Tab → List (Nat × Nat) → M Tab
  | t, [] => pure t
  | t, o :: ops => do
    let t ← t.setC P false o.1 o.2
    setsC P t ops

variable {P : Par} {kb vw : Nat} {t : Tab} {M' : Nat → Option Nat}

/-! The counted functions return what the functions of the model return. -/

theorem fail_counts {β : Type} : Counts (fun _ => none : M β) none := Counts.of (n := 0) fun _ => rfl

section
variable {setF : Tab → Nat → Nat → Option Tab} {setFC : Tab → Nat → Nat → M Tab} (hs : ∀ nx k v, Counts (setFC nx k v) (setF nx k v))
include hs

theorem copyOne_counts (t : Tab) (w i : Nat) (f : Option Nat) (nx : Tab) : Counts (t.copyOneC P setFC w i f nx) (t.copyOne P setF w i f nx) := by
  unfold Tab.copyOneC Tab.copyOne
  split
  · exact Counts.pure _
  · exact (Counts.lift _).bind fun f => (Counts.lift _).bind fun x => (Counts.lift _).bind fun v => hs _ _ _

theorem cluster_counts (t : Tab) : ∀ n i cnt qs f nx, Counts (t.clusterC P setFC n i cnt qs f nx) (t.cluster P setF n i cnt qs f nx)
  | 0, _, _, _, _, _ => fail_counts
  | n + 1, i, cnt, qs, f, nx => by
    rw [Tab.clusterC, Tab.cluster]
    refine (Counts.lift _).bind fun w => (Counts.lift _).bind fun r => (copyOne_counts hs t _ _ _ _).bind fun nx' => (Counts.lift _).bind fun w' => ?_
    split
    · exact cluster_counts t n _ _ _ _ _
    · exact Counts.pure _

theorem clusters_counts (t : Tab) : ∀ n i cnt nx, Counts (t.clustersC P setFC n i cnt nx) (t.clusters P setF n i cnt nx)
  | 0, i, cnt, nx => by
    rw [Tab.clustersC, Tab.clusters]
    split
    · exact fail_counts
    · exact Counts.pure _
  | n + 1, i, cnt, nx => by
    rw [Tab.clustersC, Tab.clusters]
    split
    · exact (Counts.lift _).bind fun i => (cluster_counts hs t _ _ _ _ _ _).bind fun r => clusters_counts t n _ _ _
    · exact Counts.pure _

theorem reserveWith_counts (t : Tab) (n : Nat) (strict : Bool) : Counts (t.reserveWithC P strict setFC n) (t.reserveWith P strict setF n) := by
  unfold Tab.reserveWithC Tab.reserveWith
  split
  · exact Counts.pure _
  · simp only
    split
    · exact (Counts.lift _).bind fun nx => clusters_counts hs t _ _ _ _
    · exact fail_counts

end

theorem setD_counts (strict : Bool) : ∀ d t k v, Counts (setDC P strict d t k v) (setD P strict d t k v)
  | 0, _, _, _ => fail_counts
  | d + 1, t, k, v => by
    rw [setDC, setD]
    split
    · exact (reserveWith_counts (setD_counts strict d) t _ strict).bind fun t => Counts.acc _
    · exact (Counts.pure t).bind fun t => Counts.acc _

/-! Each placement during the copying adds one element to the new table. -/

section
variable {setF : Tab → Nat → Nat → Option Tab} {setFC : Tab → Nat → Nat → M Tab}
  (hs : ∀ nx k v nx', setF nx k v = some nx' → Runs (setFC nx k v) nx' 1 ∧ nx'.used = nx.used + 1)
include hs

theorem copyOne_runs {w i : Nat} {f : Option Nat} {nx nx' : Tab} (e : t.copyOne P setF w i f nx = some nx') :
    nx.used ≤ nx'.used ∧ Runs (t.copyOneC P setFC w i f nx) nx' (nx'.used - nx.used) := by
  unfold Tab.copyOne at e
  unfold Tab.copyOneC
  split at e
  · cases e
    rename_i h
    rw [if_pos h]
    exact ⟨Nat.le_refl _, (Runs.pure _).cast (by omega)⟩
  · rename_i h
    rw [if_neg h]
    simp only [Option.bind_eq_bind, Option.bind_eq_some_iff] at e
    obtain ⟨f', e1, x, e2, v, e3, e4⟩ := e
    obtain ⟨h1, h2⟩ := hs _ _ _ _ e4
    refine ⟨by omega, ?_⟩
    exact ((runs_lift e1).bind ((runs_lift e2).bind ((runs_lift e3).bind h1))).cast (by omega)

theorem cluster_runs : ∀ {n i cnt : Nat} {qs : List Nat} {f : Option Nat} {nx : Tab} {r : Nat × Nat × Tab}, t.cluster P setF n i cnt qs f nx = some r →
    nx.used ≤ r.2.2.used ∧ Runs (t.clusterC P setFC n i cnt qs f nx) r (r.2.2.used - nx.used)
  | 0, _, _, _, _, _, _, e => by simp [Tab.cluster] at e
  | n + 1, i, cnt, qs, f, nx, r, e => by
    rw [Tab.cluster] at e
    simp only [Option.bind_eq_bind, Option.bind_eq_some_iff] at e
    obtain ⟨w, e1, ⟨f', qs'⟩, e2, nx', e3, w', e4, e5⟩ := e
    obtain ⟨h1, h2⟩ := copyOne_runs hs e3
    rw [Tab.clusterC]
    have key : ∀ {x : M (Nat × Nat × Tab)} {m : Nat}, Runs (if isSh w' then t.clusterC P setFC n (t.succ i) (cnt + 1) qs' f' nx' else pure (t.succ i, cnt + 1, nx')) r m →
        nx.used + (nx'.used - nx.used) + m = r.2.2.used → nx.used ≤ r.2.2.used ∧ Runs ((t.arr.get i : M Nat) >>= fun w => (pop w i qs f : M (Option Nat × List Nat)) >>= fun q =>
          t.copyOneC P setFC w i q.1 nx >>= fun next => (t.arr.get (t.succ i) : M Nat) >>= fun w =>
            if isSh w then t.clusterC P setFC n (t.succ i) (cnt + 1) q.2 q.1 next else pure (t.succ i, cnt + 1, next)) r (r.2.2.used - nx.used) := by
      intro _ m hm he
      refine ⟨by omega, ?_⟩
      exact ((runs_lift e1).bind ((runs_lift e2).bind (h2.bind ((runs_lift e4).bind hm)))).cast (by omega)
    refine key (x := pure r) (m := r.2.2.used - nx'.used) ?_ ?_
    · split at e5
      · rename_i h
        rw [if_pos h]
        exact (cluster_runs e5).2
      · rename_i h
        rw [if_neg h]
        cases e5
        exact (Runs.pure _).cast (by simp)
    · split at e5
      · have := (cluster_runs e5).1
        omega
      · cases e5
        simp only
        omega

theorem clusters_runs : ∀ {n i cnt : Nat} {nx r : Tab}, t.clusters P setF n i cnt nx = some r → nx.used ≤ r.used ∧ Runs (t.clustersC P setFC n i cnt nx) r (r.used - nx.used)
  | 0, i, cnt, nx, r, e => by
    rw [Tab.clusters] at e
    rw [Tab.clustersC]
    split at e
    · simp at e
    · rename_i h
      rw [if_neg h]
      cases e
      exact ⟨Nat.le_refl _, (Runs.pure _).cast (by omega)⟩
  | n + 1, i, cnt, nx, r, e => by
    rw [Tab.clusters] at e
    rw [Tab.clustersC]
    split at e
    · rename_i h
      rw [if_pos h]
      simp only [Option.bind_eq_bind, Option.bind_eq_some_iff] at e
      obtain ⟨i', e1, ⟨j, c, nx'⟩, e2, e3⟩ := e
      obtain ⟨h1, h2⟩ := cluster_runs hs e2
      obtain ⟨h3, h4⟩ := clusters_runs e3
      simp only at h1 h2 h3 h4
      refine ⟨by omega, ?_⟩
      exact ((runs_lift e1).bind (h2.bind h4)).cast (by omega)
    · rename_i h
      rw [if_neg h]
      cases e
      exact ⟨Nat.le_refl _, (Runs.pure _).cast (by omega)⟩

end

theorem setD_runs_one (G : Good P kb) (h100 : P.load ≤ 100) (I : Inv P kb vw t M') (hu : t.used < t.maxSize) {k v : Nat} (hk : k < 2 ^ kb) (hv : v < 2 ^ vw) (d : Nat) :
    ∃ t', setD P false (d + 1) t k v = some t' ∧ Runs (setDC P false (d + 1) t k v) t' 1 := by
  obtain ⟨t', e, _⟩ := put_inv G h100 I hu hk hv
  have hf : t.filled = false := by
    unfold Tab.filled
    simp only [beq_eq_false_iff_ne, ne_eq]
    omega
  refine ⟨t', ?_, ?_⟩
  · simp only [setD, hf, Bool.false_eq_true, if_false, Option.pure_def, Option.bind_eq_bind, Option.bind_some, e]
  · rw [setDC, hf]
    exact ((Runs.pure t).bind (runs_acc e)).cast (by omega)

open Classical in
/-- The growth places each element once. -/
theorem grow_runs (G : Good P kb) (V : Width P vw) (h1 : 1 ≤ P.load) (h100 : P.load ≤ 100) (I : Inv P kb vw t M') (hu : t.used = t.maxSize) (hbig : t.used ≤ 2 ^ 55) (d : Nat) :
    ∃ t', Runs (t.reserveWithC P false (setDC P false (d + 1)) (t.size * 2 % 2 ^ 64)) t' t.used := by
  have hm := I.maxSize
  have hr := I.room
  have hsz := I.size
  have hmod : t.size * 2 % 2 ^ 64 = t.size * 2 := Nat.mod_eq_of_lt (by omega)
  obtain ⟨n1, nf, n2, n3, n4⟩ := newBits_spec (n := t.size * 2) h1 h100 (by omega) (by omega)
  have hnb : 1 ≤ newBits P.load (t.size * 2) := by
    by_contra h0
    have h0' : newBits P.load (t.size * 2) = 0 := by omega
    have := n3 h0'
    rw [h0', this] at n2
    omega
  have n5 := n4 hnb
  have hgt : t.bucket * P.load < 2 ^ newBits P.load (t.size * 2) * P.load := by omega
  have hgtB : t.bucket < 2 ^ newBits P.load (t.size * 2) := Nat.lt_of_mul_lt_mul_right hgt
  have hkb : kb ≤ 59 + newBits P.load (t.size * 2) := by
    have h63 := I.wt.arr.le
    have : t.bucketBits < newBits P.load (t.size * 2) := by
      have hb := I.wt.bucket
      rw [hb] at hgtB
      exact (Nat.pow_lt_pow_iff_right (by decide)).1 hgtB
    omega
  obtain ⟨nx, e1, i1, i2, i3⟩ := fresh_spec V I.wt n1 hkb (by omega) nf
  -- `set` restricted to the calls that place one new element
  let setF : Tab → Nat → Nat → Option Tab := fun nx k v =>
    if h : ∃ nx', Runs (setDC P false (d + 1) nx k v) nx' 1 ∧ nx'.used = nx.used + 1 then some h.choose else none
  have hs : ∀ nx k v nx', setF nx k v = some nx' → Runs (setDC P false (d + 1) nx k v) nx' 1 ∧ nx'.used = nx.used + 1 := by
    intro nx k v nx' e
    simp only [setF] at e
    split at e
    · rename_i h
      cases e
      exact h.choose_spec
    · simp at e
  obtain ⟨t', e2, _, _, u⟩ := copy_spec (Q := fun nx => nx.maxSize = 2 ^ newBits P.load (t.size * 2) * P.load / 100) G I (setF := setF) (by
      intro nx M2 k v hI hQ hlt hk hv hno
      obtain ⟨nx', g1, g2, g3, _, g5⟩ := setD_not_filled G h100 hI (by rw [hQ]; omega) hk hv d
      obtain ⟨nx2, g6, g7⟩ := setD_runs_one G h100 hI (by rw [hQ]; omega) hk hv d
      rw [g1] at g6
      cases g6
      rw [if_pos hno] at g3
      have hex : ∃ nx', Runs (setDC P false (d + 1) nx k v) nx' 1 ∧ nx'.used = nx.used + 1 := ⟨nx', g7, g3⟩
      have heq : hex.choose = nx' := by
        have := (hex.choose_spec.1 0).symm.trans (g7 0)
        simpa using this
      refine ⟨nx', ?_, g2, g5.trans hQ, g3⟩
      simp only [setF]
      rw [dif_pos hex, heq]) i1 (by rw [i1.maxSize, i3]) i2
  obtain ⟨_, hrun⟩ := clusters_runs hs e2
  refine ⟨t', ?_⟩
  rw [hmod]
  unfold Tab.reserveWithC
  rw [if_neg (by omega)]
  change Runs (if newBits P.load (t.size * 2) < 64 then t.resizeC P false (setDC P false (d + 1)) (2 ^ newBits P.load (t.size * 2)) else _) t' t.used
  rw [if_pos n1]
  exact ((runs_lift e1).bind hrun).cast (by omega)

/-- A call of `set` places its element, and all elements if the table is filled. -/
theorem setD_runs (G : Good P kb) (V : Width P vw) (h1 : 1 ≤ P.load) (h100 : P.load ≤ 100) (I : Inv P kb vw t M') (hbig : t.used ≤ 2 ^ 55) {k v : Nat} (hk : k < 2 ^ kb)
    (hv : v < 2 ^ vw) (d : Nat) {t' : Tab} (e : setD P false (d + 2) t k v = some t') :
    Runs (setDC P false (d + 2) t k v) t' (1 + if t.used = t.maxSize then t.used else 0) := by
  by_cases hu : t.used = t.maxSize
  · obtain ⟨t1, e1⟩ := grow_runs G V h1 h100 I hu hbig d
    have hf : t.filled = true := by simp [Tab.filled, hu]
    have e2 := (reserveWith_counts (setD_counts (P := P) false (d + 1)) t (t.size * 2 % 2 ^ 64) false).value e1
    rw [setD, hf] at e
    simp only [if_true, e2, Option.bind_eq_bind, Option.bind_some] at e
    rw [setDC, hf, if_pos hu]
    exact (e1.bind (runs_acc e)).cast (by omega)
  · obtain ⟨t2, e2, h⟩ := setD_runs_one G h100 I (by have := I.used; omega) hk hv (d + 1)
    rw [e] at e2
    cases e2
    rw [if_neg hu]
    exact h

end Verif.CHT

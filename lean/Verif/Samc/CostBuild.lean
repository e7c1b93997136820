/-
The reads made by the searches for free places during the whole construction of a Samc.
-/
import Verif.Samc.Cost

namespace Verif.Samc
open Verif.BV Verif.Bits Verif.Serial Verif.IArr

/-- The reads made for one character, if the step does not fail. They do not depend on the type of the codes. -/
def stepReads (legacy : Bool) (es : List Edge) (c : Nat) (s : Lv) : Nat :=
  let g := (es.filter (fun e => e.1.toNat = c)).map Prod.snd
  if g = [] then 0
  else match grow s.bv (s.mh + (1 + lmax (g.map Prod.fst) - lmin (g.map Prod.fst))) with
    | none => 0
    | some bv => reads (yFrontC legacy (g.map Prod.fst) bv)

theorem charStep_reads {W : Nat} {legacy : Bool} {h0 h1 : Nat} {es : List Edge} {c : Nat} {s s' : Lv} (h : charStep W legacy h0 h1 es c s = some s') :
    reads (charStepC W legacy h0 h1 es c s) = stepReads legacy es c s := by
  unfold charStep at h
  unfold charStepC stepReads
  simp only at h ⊢
  split
  · rfl
  · rename_i hg
    rw [if_neg hg] at h
    simp only [Option.bind_eq_bind, Option.bind_eq_some_iff] at h
    obtain ⟨bv, e1, y, e2, codes, e3, e4⟩ := h
    rw [e1]
    simp only
    apply reads_of (x := s')
    have k1 := bind_some' (f := fun bv => do
      let y ← yFrontC legacy (((es.filter (fun e => e.1.toNat = c)).map Prod.snd).map Prod.fst) bv
      let codes ← (wr s.codes c ((((codeSub W h1 h0 : Nat) + y) % 2 ^ 64 : Int).toNat % 2 ^ W) : Option (List Nat))
      (place h0 h1 (BitVec.ofNat 8 c) (((codeSub W h1 h0 : Nat) + y) % 2 ^ 64 : Int).toNat ((es.filter (fun e => e.1.toNat = c)).map Prod.snd)
        { s with bv := bv, codes := codes } : Option Lv)) (Counts.lift (some bv)) rfl 0
    refine k1.trans ?_
    have k2 := bind_some' (f := fun y : Int => do
      let codes ← (wr s.codes c ((((codeSub W h1 h0 : Nat) + y) % 2 ^ 64 : Int).toNat % 2 ^ W) : Option (List Nat))
      (place h0 h1 (BitVec.ofNat 8 c) (((codeSub W h1 h0 : Nat) + y) % 2 ^ 64 : Int).toNat ((es.filter (fun e => e.1.toNat = c)).map Prod.snd)
        { s with bv := bv, codes := codes } : M Lv)) (yFront_counts legacy _ bv) e2 0
    refine k2.trans ?_
    rw [e3, Nat.zero_add]
    change (place h0 h1 _ _ _ _).bind _ = _
    rw [e4]
    rfl

/-- One character: both searches find the same place, and the bounds for what they read. -/
theorem charStep_cost {W : Nat} {h0 h1 : Nat} {es : List Edge} {map0 : List (Nat × Byte)} {c : Nat} {s : Lv}
    (h : LInv h0 (h1 - h0) es map0 c s) :
    charStep W false h0 h1 es c s = charStep W true h0 h1 es c s ∧
    32 * stepReads false es c s ≤ stepReads true es c s + 63 * (es.filter (fun e => e.1.toNat = c)).length ∧
    stepReads true es c s ≤ (es.filter (fun e => e.1.toNat = c)).length * (es.length * es.length + 1) := by
  unfold charStep stepReads
  simp only
  by_cases hg : (es.filter (fun e => e.1.toNat = c)).map Prod.snd = []
  · simp only [if_pos hg]
    exact ⟨trivial, by omega, by omega⟩
  · simp only [if_neg hg]
    generalize hG : es.filter (fun e => e.1.toNat = c) = G at hg ⊢
    have hmem : ∀ e, e ∈ G ↔ e ∈ es ∧ e.1.toNat = c := by
      intro e
      rw [← hG, List.mem_filter]
      simp
    have hGlen : G.length ≤ es.length := by rw [← hG]; exact List.length_filter_le ..
    have hidsne : (G.map Prod.snd).map Prod.fst ≠ [] := by
      intro hc
      exact hg (List.map_eq_nil_iff.1 hc)
    generalize hids : (G.map Prod.snd).map Prod.fst = ids at hidsne ⊢
    have hidm : ∀ i, i ∈ ids ↔ ∃ e ∈ G, e.2.1 = i := by
      intro i
      rw [← hids]
      simp only [List.map_map, List.mem_map, Function.comp]
    have hidlen : ids.length = G.length := by rw [← hids]; simp
    obtain ⟨bv, ebv, bs, bw, bb⟩ := grow_bv h.wf (s.mh + (1 + lmax ids - lmin ids))
    have hmm := le_lmax ids _ (lmin_mem ids hidsne)
    have hbit : ∀ x, x < bv.size → (bitAt bv.words x = false ↔
        ∃ e ∈ es, e.1.toNat < c ∧ e.2.1 + s.codes.getD e.1.toNat 0 = (h1 - h0) + x) := by
      intro x hx
      rw [bb x hx]
      split
      · rename_i hlt
        exact h.used x hlt
      · rename_i hge
        simp only [Bool.true_eq_false, false_iff]
        rintro ⟨e, he, h2, h3⟩
        have := (h.pos e he h2).2
        have := h.mhle
        omega
    have hfree : ∀ x, s.mh ≤ x → x < bv.size → bitAt bv.words x = true := by
      intro x hx1 hx2
      by_contra hcon
      have hcon' : bitAt bv.words x = false := by simpa using hcon
      obtain ⟨e, he, h2, h3⟩ := (hbit x hx2).1 hcon'
      have := (h.pos e he h2).2
      omega
    have hf0 : FitsAt (bitAt bv.words) ids (lmin ids) s.mh := by
      intro id hid
      have := lmin_le _ _ hid
      have := le_lmax _ _ hid
      exact hfree _ (by omega) (by omega)
    obtain ⟨y, y1, y3, hymin⟩ : ∃ y, y ≤ s.mh ∧ FitsAt (bitAt bv.words) ids (lmin ids) y ∧
        ∀ z, z < y → ¬ FitsAt (bitAt bv.words) ids (lmin ids) z := by
      classical
      have hex : ∃ y, FitsAt (bitAt bv.words) ids (lmin ids) y := ⟨s.mh, hf0⟩
      exact ⟨Nat.find hex, Nat.find_min' hex hf0, Nat.find_spec hex, fun z hz => Nat.find_min hex hz⟩
    have y4 := fun legacy => yFront_first legacy bw ids hidsne s.mh y (by omega) y1 y3 hymin
    have hyb : y ≤ es.length * es.length := by
      obtain ⟨y', _, z2, z3, _⟩ := yFront_spec true bw ids hidsne s.mh
        ((es.filter (fun e => e.1.toNat < c)).map (fun e => e.2.1 + s.codes.getD e.1.toNat 0 - (h1 - h0))) (by omega) hfree
        (by
          intro x hx hf
          obtain ⟨e, he, h2, h3⟩ := (hbit x hx).1 hf
          exact List.mem_map.2 ⟨e, List.mem_filter.2 ⟨he, by simpa using h2⟩, by omega⟩)
      have hyy : y ≤ y' := by
        by_contra hcon
        exact hymin y' (by omega) z3
      refine Nat.le_trans hyy (Nat.le_trans z2 (Nat.mul_le_mul (by omega) ?_))
      rw [List.length_map]
      exact List.length_filter_le ..
    obtain ⟨r1, r2⟩ := yFront_reads bw ids hidsne s.mh y (by omega) y1 y3 hymin
    simp only [ebv, Option.bind_eq_bind, Option.bind_some, y4]
    refine ⟨trivial, ?_, ?_⟩
    · rw [r1, hidlen]
      rw [hidlen] at r2
      have a1 : 32 * (2 * G.length * (y / 64 + 1)) = G.length * (64 * (y / 64)) + 64 * G.length := by ring
      have a2 : G.length * (64 * (y / 64)) ≤ G.length * y := Nat.mul_le_mul_left _ (by omega)
      have a3 : G.length * (y + 1) = G.length * y + G.length := by ring
      omega
    · rw [r1, hidlen]
      exact Nat.mul_le_mul_left _ (by omega)

theorem filter_split (es : List Edge) (c : Nat) : (es.filter (fun e => c ≤ e.1.toNat)).length =
    (es.filter (fun e => e.1.toNat = c)).length + (es.filter (fun e => c + 1 ≤ e.1.toNat)).length := by
  induction es with
  | nil => rfl
  | cons e es ih =>
    simp only [List.filter_cons]
    rcases Nat.lt_trichotomy e.1.toNat c with h | h | h
    · have h1 : ¬ c ≤ e.1.toNat := by omega
      have h2 : ¬ e.1.toNat = c := by omega
      have h3 : ¬ c + 1 ≤ e.1.toNat := by omega
      simp only [h1, h2, h3, decide_false]
      exact ih
    · have h3 : ¬ c + 1 ≤ c := by omega
      simp only [h, h3, decide_false, decide_true, Bool.false_eq_true, if_false, if_true, Nat.le_refl, List.length_cons]
      omega
    · have h1 : c ≤ e.1.toNat := by omega
      have h2 : ¬ e.1.toNat = c := by omega
      have h3 : c + 1 ≤ e.1.toNat := by omega
      simp only [h1, h2, h3, decide_false, decide_true, Bool.false_eq_true, if_false, if_true, List.length_cons]
      omega

theorem charLoopC_succ {W : Nat} {legacy : Bool} {h0 h1 : Nat} {es : List Edge} {n c : Nat} {s s1 s2 : Lv} (e1 : charStep W legacy h0 h1 es c s = some s1)
    (e2 : charLoop W legacy h0 h1 es n (c + 1) s1 = some s2) :
    reads (charLoopC W legacy h0 h1 es (n + 1) c s) = stepReads legacy es c s + reads (charLoopC W legacy h0 h1 es n (c + 1) s1) := by
  rw [← charStep_reads e1]
  exact reads_bind (charStep_counts W legacy h0 h1 es c s) e1 (charLoop_counts W legacy h0 h1 es n (c + 1) s1) e2

theorem charLoop_cost {W : Nat} {h0 h1 : Nat} {es : List Edge} {map0 : List (Nat × Byte)} (hlt : h0 < h1)
    (hW : W ≤ 64) (hbig : h1 + (h1 - h0) + es.length * es.length < 2 ^ W) (hidx : ∀ e ∈ es, e.2.1 < h1 - h0) :
    ∀ (n c : Nat) (s : Lv), c + n = 256 → LInv h0 (h1 - h0) es map0 c s →
      charLoop W false h0 h1 es n c s = charLoop W true h0 h1 es n c s ∧
      32 * reads (charLoopC W false h0 h1 es n c s) ≤ reads (charLoopC W true h0 h1 es n c s) + 63 * (es.filter (fun e => c ≤ e.1.toNat)).length ∧
      reads (charLoopC W true h0 h1 es n c s) ≤ (es.filter (fun e => c ≤ e.1.toNat)).length * (es.length * es.length + 1)
  | 0, c, s, hc, _ => by
    have hz : ∀ l, reads (charLoopC W l h0 h1 es 0 c s) = 0 := fun _ => rfl
    rw [hz, hz]
    exact ⟨rfl, by omega, by omega⟩
  | n + 1, c, s, hc, hi => by
    obtain ⟨s1, e1, h1'⟩ := charStep_inv (legacy := true) hlt hW hbig hidx (c := c) (by omega) hi
    obtain ⟨a1, a2, a3⟩ := charStep_cost (W := W) hi
    obtain ⟨s2, e2, _⟩ := charLoop_inv (legacy := true) (map0 := map0) hlt hW hbig hidx n (c + 1) s1 (by omega) h1'
    obtain ⟨b1, b2, b3⟩ := charLoop_cost hlt hW hbig hidx n (c + 1) s1 (by omega) h1'
    rw [charLoopC_succ e1 e2, charLoopC_succ (a1.trans e1) (b1.trans e2), filter_split es c]
    refine ⟨?_, by omega, ?_⟩
    · simp only [charLoop, a1, e1, Option.bind_eq_bind, Option.bind_some]
      exact b1
    · rw [Nat.add_mul]
      omega

theorem levelC_reads {W : Nat} {legacy : Bool} {d h0 h1 : Nat} {s : St} {es : List Edge} {l : Lv} (e0 : s.head[d]? = some h0) (e1 : s.head[d + 1]? = some h1)
    (e2 : collect d h0 s.queue = some es)
    (e3 : charLoop W legacy h0 h1 es 256 0 ⟨BV.empty, 0, List.replicate 256 0, s.map, []⟩ = some l) :
    reads (levelC W legacy d s) = reads (charLoopC W legacy h0 h1 es 256 0 ⟨BV.empty, 0, List.replicate 256 0, s.map, []⟩) := by
  apply reads_of (x := ⟨l.map, l.queue, s.code ++ [l.codes], s.head ++ [(h1 + l.mh) % 2 ^ W]⟩)
  unfold levelC
  rw [e0, e1]
  change (do
    let es ← (collect d h0 s.queue : M (List Edge))
    let l ← charLoopC W legacy h0 h1 es 256 0 ⟨BV.empty, 0, List.replicate 256 0, s.map, []⟩
    pure (⟨l.map, l.queue, s.code ++ [l.codes], s.head ++ [(h1 + l.mh) % 2 ^ W]⟩ : St) : M St) 0 = _
  rw [e2]
  have := bind_some' (f := fun l : Lv => (pure (⟨l.map, l.queue, s.code ++ [l.codes], s.head ++ [(h1 + l.mh) % 2 ^ W]⟩ : St) : M St))
    (charLoop_counts W legacy h0 h1 es 256 0 ⟨BV.empty, 0, List.replicate 256 0, s.map, []⟩) e3 0
  refine Eq.trans this ?_
  rw [Nat.zero_add]
  rfl

theorem level_cost {W : Nat} {keys : List Key} {d : Nat} {s : St} (hW : W ≤ 64)
    (hbig : (d + 2) * (1 + (d + 1) * (keys.length * keys.length)) < 2 ^ W) (h : GInv W keys d s) :
    level W false d s = level W true d s ∧
    32 * reads (levelC W false d s) ≤ reads (levelC W true d s) + 63 * keys.length ∧
    reads (levelC W true d s) ≤ keys.length * (keys.length * keys.length + 1) := by
  have hW64 : 2 ^ W ≤ 2 ^ 64 := Nat.pow_le_pow_right (by decide) hW
  have eh0 : s.head[d]? = some (s.head.getD d 0) := by
    rw [List.getD_eq_getElem?_getD, List.getElem?_eq_getElem (by rw [h.hlen]; omega)]; rfl
  have eh1 : s.head[d + 1]? = some (s.head.getD (d + 1) 0) := by
    rw [List.getD_eq_getElem?_getD, List.getElem?_eq_getElem (by rw [h.hlen]; omega)]; rfl
  have hlt := h.mono d (Nat.le_refl _)
  have hheight := h.height
  have htotal := h.total
  have hh1W : s.head.getD (d + 1) 0 < 2 ^ W := h.hsmall _ (List.mem_of_getElem? eh1)
  generalize hH0 : s.head.getD d 0 = h0 at eh0 hlt hheight
  generalize hH1 : s.head.getD (d + 1) 0 = h1 at eh1 hlt hheight htotal hh1W
  have hqok : ∀ p ∈ s.queue, p.2 ≠ [] ∧ h0 ≤ p.1 ∧ p.1 < 2 ^ 64 ∧ ∀ k ∈ p.2, d ≤ k.length := by
    intro p hp
    obtain ⟨a1, w, a2, a3, a4⟩ := h.queueS p hp
    obtain ⟨k, hk⟩ := List.exists_mem_of_ne_nil _ a1
    have hpath : Path keys w := ⟨k, (a4 k hk).1, (a4 k hk).2.trans (List.prefix_append _ _)⟩
    have hin := h.inside w hpath (by omega)
    rw [a2, hH0, hH1] at hin
    refine ⟨a1, by omega, by omega, ?_⟩
    intro k hk
    have := (a4 k hk).2.length_le
    omega
  obtain ⟨es, ees, c1, c2, c3, c4, c5⟩ := collect_spec d h0 s.queue hqok
  have hqn := h.queueN
  have hidx : ∀ e ∈ es, e.2.1 < h1 - h0 := by
    intro e he
    obtain ⟨p, hp, h2, k, hk, h3⟩ := c1 e he
    obtain ⟨_, w, a2, a3, a4⟩ := h.queueS p hp
    have hpath : Path keys w := ⟨k, (a4 k hk).1, (a4 k hk).2.trans (List.prefix_append _ _)⟩
    have hin := h.inside w hpath (by omega)
    rw [a2, hH0, hH1] at hin
    omega
  have hn1 : es.length ≤ keys.length := by omega
  have hn2 : es.length * es.length ≤ keys.length * keys.length := Nat.mul_le_mul hn1 hn1
  have hbig' : h1 + (h1 - h0) + es.length * es.length < 2 ^ W := by
    generalize keys.length * keys.length = m at hn2 hbig hheight htotal
    have hB : (d + 2) * (1 + (d + 1) * m) = (d + 1) * (1 + d * m) + (d + 1) * m + (1 + d * m) + m := by ring
    have : 0 ≤ (d + 1) * m := Nat.zero_le _
    omega
  obtain ⟨l, el, _⟩ := charLoop_inv (legacy := true) (map0 := s.map) hlt hW hbig' hidx 256 0 _ rfl (linv_start h0 (h1 - h0) es s.map)
  obtain ⟨a1, a2, a3⟩ := charLoop_cost (W := W) (map0 := s.map) hlt hW hbig' hidx 256 0 _ rfl (linv_start h0 (h1 - h0) es s.map)
  rw [levelC_reads eh0 eh1 ees el, levelC_reads eh0 eh1 ees (a1.trans el)]
  refine ⟨?_, Nat.le_trans a2 (Nat.add_le_add_left (Nat.mul_le_mul_left _ (Nat.le_trans (List.length_filter_le ..) hn1)) _),
    Nat.le_trans a3 (Nat.mul_le_mul (Nat.le_trans (List.length_filter_le ..) hn1) (by omega))⟩
  simp only [level, eh0, eh1, ees, a1, Option.bind_eq_bind, Option.bind_some]

theorem levelsC_stop {W : Nat} {legacy : Bool} {n d : Nat} {s : St} (hq : s.queue = []) : reads (levelsC W legacy (n + 1) d s) = 0 := by
  unfold levelsC
  rw [if_pos hq]
  rfl

theorem levelsC_succ {W : Nat} {legacy : Bool} {n d : Nat} {s s1 s2 : St} (hq : s.queue ≠ []) (e1 : level W legacy d s = some s1)
    (e2 : levels W legacy n (d + 1) s1 = some s2) :
    reads (levelsC W legacy (n + 1) d s) = reads (levelC W legacy d s) + reads (levelsC W legacy n (d + 1) s1) := by
  rw [levelsC, if_neg hq]
  exact reads_bind (level_counts W legacy d s) e1 (levels_counts W legacy n (d + 1) s1) e2

theorem levels_cost {W : Nat} {keys : List Key} (hW : W ≤ 64) (hnul : ∀ k ∈ keys, 0 ∉ k) (L : Nat)
    (hL : ∀ k ∈ keys, k.length ≤ L) (hmax : ∃ k ∈ keys, k.length = L)
    (hbig : (L + 2) * (1 + (L + 1) * (keys.length * keys.length)) < 2 ^ W) : ∀ (n d : Nat) (s : St), n + d = L + 2 → 0 < n → GInv W keys d s →
    levels W false n d s = levels W true n d s ∧
    32 * reads (levelsC W false n d s) ≤ reads (levelsC W true n d s) + (n - 1) * (63 * keys.length) ∧
    reads (levelsC W true n d s) ≤ (n - 1) * (keys.length * (keys.length * keys.length + 1))
  | 0, _, _, _, hn, _ => absurd hn (by simp)
  | n + 1, d, s, hnd, _, h => by
    by_cases hq : s.queue = []
    · rw [levelsC_stop hq, levelsC_stop hq]
      refine ⟨?_, by omega, by omega⟩
      simp only [levels, if_pos hq]
    · have hd : d ≤ L := by
        obtain ⟨p, hp⟩ := List.exists_mem_of_ne_nil _ hq
        obtain ⟨a1, w, a2, a3, a4⟩ := h.queueS p hp
        obtain ⟨k, hk⟩ := List.exists_mem_of_ne_nil _ a1
        have := (a4 k hk).2.length_le
        have := hL k (a4 k hk).1
        omega
      have hb : (d + 2) * (1 + (d + 1) * (keys.length * keys.length)) < 2 ^ W :=
        Nat.lt_of_le_of_lt (Nat.mul_le_mul (by omega) (Nat.add_le_add_left (Nat.mul_le_mul_right _ (by omega)) _)) hbig
      obtain ⟨s1, e1, h1⟩ := level_inv (legacy := true) hW hnul hb h hq
      obtain ⟨a1, a2, a3⟩ := level_cost hW hb h
      obtain ⟨s2, e2, _⟩ := levels_spec (legacy := true) hW hnul L hL hmax hbig n (d + 1) s1 (by omega) (by omega) h1
      obtain ⟨b1, b2, b3⟩ := levels_cost hW hnul L hL hmax hbig n (d + 1) s1 (by omega) (by omega) h1
      rw [levelsC_succ hq e1 e2, levelsC_succ hq (a1.trans e1) (b1.trans e2)]
      obtain ⟨m, rfl⟩ : ∃ m, n = m + 1 := ⟨n - 1, by omega⟩
      simp only [Nat.add_sub_cancel] at b2 b3 ⊢
      have c1 : (m + 1) * (63 * keys.length) = m * (63 * keys.length) + 63 * keys.length := by ring
      have c2 : (m + 1) * (keys.length * (keys.length * keys.length + 1)) =
        m * (keys.length * (keys.length * keys.length + 1)) + keys.length * (keys.length * keys.length + 1) := by ring
      refine ⟨?_, by omega, by omega⟩
      rw [levels, levels, if_neg hq, if_neg hq, a1, e1]
      exact b1

/-! ### Narrow types -/

theorem charLoop_reads_cut {W : Nat} (legacy : Bool) {h0 h1 : Nat} (hlt : h0 ≤ h1) (es : List Edge) : ∀ (n c : Nat) (s s' : Lv),
    charLoop 64 legacy h0 h1 es n c s = some s' →
    reads (charLoopC W legacy h0 h1 es n c { s with codes := cut W s.codes }) = reads (charLoopC 64 legacy h0 h1 es n c s)
  | 0, c, s, s', _ => rfl
  | n + 1, c, s, s', h => by
    simp only [charLoop, Option.bind_eq_bind, Option.bind_eq_some_iff] at h
    obtain ⟨s1, e1, e2⟩ := h
    have f1 := charStep_cut (W := W) legacy hlt es c s
    rw [e1, Option.map_some] at f1
    have f2 := charLoop_cut (W := W) legacy hlt es n (c + 1) s1
    rw [e2, Option.map_some] at f2
    rw [charLoopC_succ e1 e2, charLoopC_succ f1 f2, charLoop_reads_cut legacy hlt es n (c + 1) s1 s' e2]
    rfl

theorem level_reads_cut {W : Nat} (legacy : Bool) {d : Nat} {s s' : St} (h64 : level 64 legacy d s = some s')
    (hm : s.head.getD d 0 ≤ s.head.getD (d + 1) 0) : reads (levelC W legacy d (s.cut W)) = reads (levelC 64 legacy d s) := by
  simp only [level, Option.bind_eq_bind, Option.bind_eq_some_iff, Option.pure_def, Option.some.injEq] at h64
  obtain ⟨h0, e0, h1, e1, es, ees, l, el, rfl⟩ := h64
  have g0 : s.head.getD d 0 = h0 := by rw [List.getD_eq_getElem?_getD, e0]; rfl
  have g1 : s.head.getD (d + 1) 0 = h1 := by rw [List.getD_eq_getElem?_getD, e1]; rfl
  rw [g0, g1] at hm
  have hcl := charLoop_cut (W := W) legacy hm es 256 0 ⟨BV.empty, 0, List.replicate 256 0, s.map, []⟩
  have hcr := charLoop_reads_cut (W := W) legacy hm es 256 0 ⟨BV.empty, 0, List.replicate 256 0, s.map, []⟩ l el
  rw [show Samc.cut W (List.replicate 256 0) = List.replicate 256 0 from cut_id (by
      intro x hx
      rw [(List.mem_replicate.1 hx).2]
      exact Nat.two_pow_pos _)] at hcl hcr
  rw [el, Option.map_some] at hcl
  rw [levelC_reads e0 e1 ees el, ← hcr]
  exact levelC_reads (s := s.cut W) e0 e1 ees hcl

theorem levels_reads_cut {W : Nat} {legacy : Bool} {keys : List Key} (hW : W ≤ 64) (hnul : ∀ k ∈ keys, 0 ∉ k) (L : Nat)
    (hL : ∀ k ∈ keys, k.length ≤ L) (hmax : ∃ k ∈ keys, k.length = L)
    (hbig : (L + 2) * (1 + (L + 1) * (keys.length * keys.length)) < 2 ^ 64) : ∀ (n d : Nat) (s s' : St), n + d = L + 2 → 0 < n → GInv 64 keys d s →
    (∀ x ∈ s.head, x < 2 ^ W) → levels 64 legacy n d s = some s' → s'.head.getD (L + 2) 0 < 2 ^ W →
    reads (levelsC W legacy n d (s.cut W)) = reads (levelsC 64 legacy n d s)
  | 0, _, _, _, _, hn, _, _, _, _ => absurd hn (by simp)
  | n + 1, d, s, s', hnd, _, h, hhd, hs', hfin => by
    have hqc : (s.cut W).queue = s.queue := rfl
    by_cases hq : s.queue = []
    · rw [levelsC_stop hq, levelsC_stop (hqc.trans hq)]
    · have hd : d ≤ L := by
        obtain ⟨p, hp⟩ := List.exists_mem_of_ne_nil _ hq
        obtain ⟨a1, w, a2, a3, a4⟩ := h.queueS p hp
        obtain ⟨k, hk⟩ := List.exists_mem_of_ne_nil _ a1
        have := (a4 k hk).2.length_le
        have := hL k (a4 k hk).1
        omega
      have hb : (d + 2) * (1 + (d + 1) * (keys.length * keys.length)) < 2 ^ 64 :=
        Nat.lt_of_le_of_lt (Nat.mul_le_mul (by omega) (Nat.add_le_add_left (Nat.mul_le_mul_right _ (by omega)) _)) hbig
      obtain ⟨s1, e1, h1⟩ := level_inv (legacy := legacy) (Nat.le_refl 64) hnul hb h hq
      have hmem : s.head.getD (d + 1) 0 ∈ s.head := by
        rw [List.getD_eq_getElem?_getD, List.getElem?_eq_getElem (by rw [h.hlen]; omega)]
        exact List.getElem_mem _
      have hle := Nat.le_of_lt (h.mono d (Nat.le_refl _))
      obtain ⟨c1, c2, _⟩ := level_cut hW legacy e1 hle h.hlen (h.hsmall _ hmem)
      have e2 : levels 64 legacy n (d + 1) s1 = some s' := by
        rw [levels, if_neg hq, e1] at hs'
        exact hs'
      obtain ⟨s2, f1, f2⟩ := levels_spec (legacy := legacy) (Nat.le_refl 64) hnul L hL hmax hbig n (d + 1) s1 (by omega) (by omega) h1
      obtain rfl : s2 = s' := Option.some.inj (f1.symm.trans e2)
      have f4 : s2.head.getD (d + 2) 0 = s1.head.getD (d + 2) 0 := by
        obtain ⟨t, ht⟩ := levels_prefix n (d + 1) s1 s2 f1
        rw [← ht, getD_append_left (by rw [h1.hlen]; omega)]
      have f5 := mono_le f2.mono (d + 2) (L + 2) (by omega) (by omega)
      have hfit : s1.head.getD (d + 2) 0 < 2 ^ W := by omega
      have hst : ({ s1.cut W with head := s.head ++ [s1.head.getD (d + 2) 0 % 2 ^ W] } : St) = s1.cut W := by
        rw [Nat.mod_eq_of_lt hfit, ← c2]
        rfl
      rw [hst] at c1
      have hhd1 : ∀ x ∈ s1.head, x < 2 ^ W := by
        intro x hx
        rw [c2] at hx
        rcases List.mem_append.1 hx with hx | hx
        · exact hhd x hx
        · rw [List.mem_singleton.1 hx]; exact hfit
      obtain ⟨s3, g1, _, g3, _⟩ := levels_cut (legacy := legacy) hW hnul L hL hmax hbig n (d + 1) s1 (by omega) (by omega) h1 hhd1
      obtain rfl : s3 = s2 := Option.some.inj (g1.symm.trans e2)
      rw [levelsC_succ hq e1 e2, levelsC_succ (hqc ▸ hq) c1 (g3 hfin), level_reads_cut legacy e1 hle,
        levels_reads_cut hW hnul L hL hmax hbig n (d + 1) s1 s3 (by omega) (by omega) h1 hhd1 e2 hfin]

theorem build_reads {W : Nat} {legacy : Bool} {keys : List Key} {s : Samc} (hne : keys ≠ []) (hnul : ∀ k ∈ keys, 0 ∉ k) (hW1 : 1 ≤ W) (hW : W ≤ 64)
    {L : Nat} (hL : ∀ k ∈ keys, k.length ≤ L) (hbig : (L + 2) * (1 + (L + 1) * (keys.length * keys.length)) < 2 ^ 64)
    (hs : build W legacy keys = some s) :
    (∀ l, build W l keys = some s) ∧ (∀ l, build 64 l keys = some s) ∧
    (∀ l, reads (buildC W l keys) = reads (levelsC 64 l (lmax (keys.map List.length) + 2) 0 ⟨[(0, 94)], [(0, keys)], [], [0, 1]⟩)) ∧
    32 * reads (buildC W false keys) ≤ reads (buildC W true keys) + 63 * (keys.length * (L + 1)) ∧
    reads (buildC W true keys) ≤ (L + 1) * (keys.length * (keys.length * keys.length + 1)) := by
  obtain ⟨l1, l2⟩ := lmax_spec keys hne
  have hle : lmax (keys.map List.length) ≤ L := by
    obtain ⟨k, hk, e⟩ := l2
    rw [← e]; exact hL k hk
  have hb := Nat.lt_of_le_of_lt (poly_mono (n := keys.length) hle) hbig
  generalize hLd : lmax (keys.map List.length) = L' at *
  have h2W : 2 ≤ 2 ^ W := by
    have := Nat.pow_le_pow_right (n := 2) (by decide) hW1
    omega
  have gs := ginv_start (W := 64) (by decide) keys hne
  have hstart : ∀ x ∈ (⟨[(0, 94)], [(0, keys)], [], [0, 1]⟩ : St).head, x < 2 ^ W := by
    intro x hx
    simp at hx
    omega
  obtain ⟨a1, a2, a3⟩ := levels_cost (Nat.le_refl 64) hnul L' l1 l2 hb (L' + 2) 0 _ (by omega) (by omega) gs
  obtain ⟨st, e1, g1⟩ := levels_spec (legacy := true) (Nat.le_refl 64) hnul L' l1 l2 hb (L' + 2) 0 _ (by omega) (by omega) gs
  -- both builds with 64 bits are equal, so those with `W` bits are
  have h64 : build 64 false keys = build 64 true keys := by
    unfold build
    rw [hLd, a1]
  have hWW : ∀ l, build W l keys = some s := by
    obtain ⟨_, t, _, t1, _, _, t2⟩ := build_fits (legacy := legacy) hne hnul hW1 hW hL hbig
    intro l
    obtain ⟨_, u, _, u1, _, _, u2⟩ := build_fits (legacy := l) hne hnul hW1 hW hL hbig
    have : t = u := by
      have : build 64 legacy keys = build 64 l keys := by cases legacy <;> cases l <;> simp [h64]
      exact Option.some.inj (t1.symm.trans (this.trans u1))
    rw [u2, ← this, ← t2, hs]
  have hW64 : ∀ l, build 64 l keys = some s := by
    intro l
    obtain ⟨_, u, _, u1, _, _, u2⟩ := build_fits (legacy := l) hne hnul hW1 hW hL hbig
    rw [hWW l] at u2
    split at u2
    · rw [u1, u2]
    · cases u2
  have hfit : st.head.getD (L' + 2) 0 < 2 ^ W := by
    obtain ⟨_, t, _, t1, _, _, t2⟩ := build_fits (legacy := true) hne hnul hW1 hW hL hbig
    rw [hWW true] at t2
    have hlt : t.storage.length < 2 ^ W := by
      by_contra hc
      rw [if_neg hc] at t2
      cases t2
    have hlast : st.head.getLast? = some (st.head.getD (L' + 2) 0) := by
      rw [List.getLast?_eq_getElem?, g1.hlen, List.getD_eq_getElem?_getD, show L' + 1 + 2 - 1 = L' + 2 by omega,
        List.getElem?_eq_getElem (by rw [g1.hlen]; omega)]
      rfl
    simp only [build, hLd, e1, hlast, Option.bind_eq_bind, Option.bind_some, Option.bind_eq_some_iff, Option.pure_def, Option.some.injEq] at t1
    obtain ⟨m, em, rfl⟩ := t1
    have hml : m.length = st.head.getD (L' + 2) 0 := by
      rw [store_length _ _ _ em, List.length_replicate]
    simp only at hlt
    omega
  have hread : ∀ l, reads (buildC W l keys) = reads (levelsC 64 l (L' + 2) 0 ⟨[(0, 94)], [(0, keys)], [], [0, 1]⟩) := by
    intro l
    have e1' : levels 64 l (L' + 2) 0 ⟨[(0, 94)], [(0, keys)], [], [0, 1]⟩ = some st := by
      cases l with
      | true => exact e1
      | false => exact a1.trans e1
    rw [← levels_reads_cut (legacy := l) hW hnul L' l1 l2 hb (L' + 2) 0 _ st (by omega) (by omega) gs hstart e1' hfit]
    have hbs := hWW l
    simp only [build, hLd, Option.bind_eq_bind, Option.bind_eq_some_iff, Option.pure_def, Option.some.injEq] at hbs
    obtain ⟨s1, b1, n, b2, m, b3, rfl⟩ := hbs
    apply reads_of (x := ⟨m, s1.code, s1.head⟩)
    unfold buildC
    rw [hLd]
    have k1 := bind_some' (f := fun s : St => do
      let n ← (s.head.getLast? : Option Nat)
      let st ← (store s.map (List.replicate n 0xff) : Option (List Byte))
      pure (⟨st, s.code, s.head⟩ : Samc)) (levels_counts W l (L' + 2) 0 ⟨[(0, 94)], [(0, keys)], [], [0, 1]⟩) b1 0
    refine k1.trans ?_
    rw [b2, Nat.zero_add]
    change (do
      let st ← (store s1.map (List.replicate n 0xff) : M (List Byte))
      pure (⟨st, s1.code, s1.head⟩ : Samc) : M Samc) _ = _
    rw [b3]
    rfl
  refine ⟨hWW, hW64, hread, ?_, ?_⟩
  · rw [hread, hread]
    have : (L' + 2 - 1) * (63 * keys.length) ≤ 63 * (keys.length * (L + 1)) := by
      rw [show 63 * (keys.length * (L + 1)) = (L + 1) * (63 * keys.length) by ring]
      exact Nat.mul_le_mul_right _ (by omega)
    omega
  · rw [hread]
    exact Nat.le_trans a3 (Nat.mul_le_mul_right _ (by omega))

end Verif.Samc

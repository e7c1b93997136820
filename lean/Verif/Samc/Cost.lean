/-
The constructor of Samc once more, counting the reads of the bit vector of free places made by the two searches `y_check_` and `y_check_legacy_`, and the
proofs of bounds for the counts.
-/
import Verif.IArr.Count
import Verif.Samc.First

namespace Verif.Samc
open Verif.BV Verif.Bits Verif.Serial Verif.IArr

/-! ### The counted functions -/

/-- `empty_field` at `i`, Samc.hpp:231-239: one call of `field_bits` if the offset is a multiple of 64, otherwise two. Each call counts as one read, also
those behind the last word. -/
def windowC (e : BVec) (i off : Nat) : M W64 :=
  if off % 64 = 0 then acc (fieldBits e (off / 64 + i))
  else do
    let a ← acc (fieldBits e (off / 64 + i))
    let b ← acc (fieldBits e (off / 64 + i + 1))
    pure ((a >>> (off % 64)) ||| (b <<< (64 - off % 64)))

/-- The inner loop of `y_check_`, Samc.hpp:230-240. -/
def candsC (e : BVec) (heads i : Nat) : List Nat → W64 → M W64
  | [], c => pure c
  | id :: ids, c => do
    let m ← windowC e i (id - heads)
    if c &&& m = 0#64 then pure 0#64 else candsC e heads i ids (c &&& m)

/-- The outer loop of `y_check_`, Samc.hpp:228-244. -/
def yLoopC (e : BVec) (ids : List Nat) : (n i : Nat) → M Int
  | 0, _ => pure ((e.size : Int) + ids.headD 0 - ids.getLastD 0)
  | n + 1, i => do
    let c ← candsC e (lmin ids) i ids (BitVec.allOnes 64)
    if c ≠ 0#64 then pure ((64 * i + Bits.ctz64 c : Nat) - (lmin ids : Int)) else yLoopC e ids n (i + 1)

/-- `y_check_`, Samc.hpp:220-245. -/
def yCheckC (ids : List Nat) (e : BVec) : M Int := yLoopC e ids ((e.size + ids.headD 0 - ids.getLastD 0) / 64 + 1) 0

/-- The inner loop of `y_check_legacy_`, Samc.hpp:251-257: one read of a bit for each index. -/
def legacyFitsC (e : BVec) (heads y : Nat) : List Nat → Bool → M Bool
  | [], found => pure found
  | id :: ids, found => do
    let b ← acc (e.get (y + (id - heads)))
    legacyFitsC e heads y ids (found && b)

/-- The outer loop of `y_check_legacy_`, Samc.hpp:250-260. -/
def legacyLoopC (e : BVec) (ids : List Nat) : (n y : Nat) → M Int
  | 0, _ => (none : Option Int)
  | n + 1, y => do
    let found ← legacyFitsC e (lmin ids) y ids true
    if found then pure ((y : Int) - lmin ids) else legacyLoopC e ids n (y + 1)

/-- `y_check_legacy_`, Samc.hpp:249-261. -/
def yCheckLegacyC (ids : List Nat) (e : BVec) : M Int := legacyLoopC e ids (e.size + 64) 0

/-- The choice of the search, Samc.hpp:183. -/
def yFrontC (legacy : Bool) (ids : List Nat) (e : BVec) : M Int := if legacy then yCheckLegacyC ids e else yCheckC ids e

/-- The body of the loop over the characters, Samc.hpp:172-200. -/
def charStepC (W : Nat) (legacy : Bool) (h0 h1 : Nat) (es : List (Byte × Nat × List Key)) (c : Nat) (s : Lv) : M Lv :=
  let g := (es.filter (fun e => e.1.toNat = c)).map Prod.snd
  if g = [] then pure s
  else do
    let ids := g.map Prod.fst
    let bv ← (grow s.bv (s.mh + (1 + lmax ids - lmin ids)) : Option BVec)
    let y ← yFrontC legacy ids bv
    let code := (((codeSub W h1 h0 : Nat) + y) % 2 ^ 64 : Int).toNat
    let codes ← (wr s.codes c (code % 2 ^ W) : Option (List Nat))
    (place h0 h1 (BitVec.ofNat 8 c) code g { s with bv := bv, codes := codes } : Option Lv)

/-- The loop over the characters, Samc.hpp:171-201. -/
def charLoopC (W : Nat) (legacy : Bool) (h0 h1 : Nat) (es : List (Byte × Nat × List Key)) : (n c : Nat) → Lv → M Lv
  | 0, _, s => pure s
  | n + 1, c, s => do
    let s ← charStepC W legacy h0 h1 es c s
    charLoopC W legacy h0 h1 es n (c + 1) s

/-- The body of the loop over the depths, Samc.hpp:152-208. -/
def levelC (W : Nat) (legacy : Bool) (d : Nat) (s : St) : M St := do
  let h0 ← (s.head[d]? : Option Nat)
  let h1 ← (s.head[d + 1]? : Option Nat)
  let es ← (collect d h0 s.queue : Option (List (Byte × Nat × List Key)))
  let l ← charLoopC W legacy h0 h1 es 256 0 ⟨BV.empty, 0, List.replicate 256 0, s.map, []⟩
  pure ⟨l.map, l.queue, s.code ++ [l.codes], s.head ++ [(h1 + l.mh) % 2 ^ W]⟩

/-- The loop over the depths, Samc.hpp:145-209. -/
def levelsC (W : Nat) (legacy : Bool) : (n d : Nat) → St → M St
  | 0, _, _ => (none : Option St)
  | n + 1, d, s =>
    if s.queue = [] then pure s
    else do
      let s ← levelC W legacy d s
      levelsC W legacy n (d + 1) s

/-- The constructor of `_SamcImpl`, Samc.hpp:115 and 137-216. -/
def buildC (W : Nat) (legacy : Bool) (keys : List Key) : M Samc := do
  let s ← levelsC W legacy (lmax (keys.map List.length) + 2) 0 ⟨[(0, 94)], [(0, keys)], [], [0, 1]⟩
  let n ← (s.head.getLast? : Option Nat)
  let st ← (store s.map (List.replicate n 0xff) : Option (List Byte))
  pure ⟨st, s.code, s.head⟩

/-! ### The results are those of the model -/

theorem window_counts (e : BVec) (i off : Nat) : Counts (windowC e i off) (window e i off) := by
  unfold windowC window
  split
  · exact Counts.acc _
  · exact Counts.bind (Counts.acc _) fun _ => Counts.bind (Counts.acc _) fun _ => Counts.pure _

theorem cands_counts (e : BVec) (heads i : Nat) : ∀ (ids : List Nat) (c : W64), Counts (candsC e heads i ids c) (cands e heads i ids c)
  | [], c => Counts.pure _
  | id :: ids, c => by
    refine Counts.bind (window_counts _ _ _) fun m => ?_
    split
    · exact Counts.pure _
    · exact cands_counts e heads i ids _

theorem yLoop_counts (e : BVec) (ids : List Nat) : ∀ n i, Counts (yLoopC e ids n i) (yLoop e ids n i)
  | 0, i => Counts.pure _
  | n + 1, i => by
    refine Counts.bind (cands_counts _ _ _ _ _) fun m => ?_
    split
    · exact Counts.pure _
    · exact yLoop_counts e ids n (i + 1)

theorem legacyFits_counts (e : BVec) (heads y : Nat) : ∀ (ids : List Nat) (f : Bool), Counts (legacyFitsC e heads y ids f) (legacyFits e heads y ids f)
  | [], _ => Counts.pure _
  | _ :: ids, _ => Counts.bind (Counts.acc _) fun _ => legacyFits_counts e heads y ids _

theorem legacyLoop_counts (e : BVec) (ids : List Nat) : ∀ n y, Counts (legacyLoopC e ids n y) (legacyLoop e ids n y)
  | 0, y => Counts.lift _
  | n + 1, y => by
    refine Counts.bind (legacyFits_counts _ _ _ _ _) fun m => ?_
    split
    · exact Counts.pure _
    · exact legacyLoop_counts e ids n (y + 1)

theorem yFront_counts (legacy : Bool) (ids : List Nat) (e : BVec) : Counts (yFrontC legacy ids e) (yFront legacy ids e) := by
  unfold yFrontC yFront
  split
  · exact legacyLoop_counts _ _ _ _
  · exact yLoop_counts _ _ _ _

theorem charStep_counts (W : Nat) (legacy : Bool) (h0 h1 : Nat) (es : List Edge) (c : Nat) (s : Lv) :
    Counts (charStepC W legacy h0 h1 es c s) (charStep W legacy h0 h1 es c s) := by
  unfold charStepC charStep
  simp only
  split
  · exact Counts.pure _
  · exact Counts.bind (Counts.lift _) fun bv => Counts.bind (yFront_counts _ _ _) fun y => Counts.bind (Counts.lift _) fun codes => Counts.lift _

theorem charLoop_counts (W : Nat) (legacy : Bool) (h0 h1 : Nat) (es : List Edge) : ∀ (n c : Nat) (s : Lv),
    Counts (charLoopC W legacy h0 h1 es n c s) (charLoop W legacy h0 h1 es n c s)
  | 0, _, _ => Counts.pure _
  | n + 1, c, s => Counts.bind (charStep_counts _ _ _ _ _ _ s) fun s => charLoop_counts W legacy h0 h1 es n (c + 1) s

theorem level_counts (W : Nat) (legacy : Bool) (d : Nat) (s : St) : Counts (levelC W legacy d s) (level W legacy d s) :=
  Counts.bind (Counts.lift _) fun _ => Counts.bind (Counts.lift _) fun _ => Counts.bind (Counts.lift _) fun _ =>
    Counts.bind (charLoop_counts _ _ _ _ _ _ _ _) fun _ => Counts.pure _

theorem levels_counts (W : Nat) (legacy : Bool) : ∀ n d s, Counts (levelsC W legacy n d s) (levels W legacy n d s)
  | 0, d, s => Counts.lift _
  | n + 1, d, s => by
    unfold levelsC levels
    split
    · exact Counts.pure _
    · exact Counts.bind (level_counts _ _ _ _) fun s => levels_counts W legacy n (d + 1) s

theorem build_counts (W : Nat) (legacy : Bool) (keys : List Key) : Counts (buildC W legacy keys) (build W legacy keys) :=
  Counts.bind (levels_counts _ _ _ _ _) fun _ => Counts.bind (Counts.lift _) fun _ => Counts.bind (Counts.lift _) fun _ => Counts.pure _

/-! ### The two searches -/

theorem cands_costs (e : BVec) (heads i : Nat) : ∀ (ids : List Nat) (c : W64), reads (candsC e heads i ids c) ≤ 2 * ids.length := by
  have hw : ∀ off, Costs (windowC e i off) (window e i off) 2 := by
    intro off
    unfold windowC window
    split
    · exact (Costs.acc _).mono (by omega)
    · exact Costs.bind (K := 1) (K' := 1) (Costs.acc _) fun _ => Costs.bind (K' := 0) (Costs.acc _) fun _ => Costs.pure _
  have key : ∀ (ids : List Nat) (c : W64), Costs (candsC e heads i ids c) (cands e heads i ids c) (2 * ids.length) := by
    intro ids
    induction ids with
    | nil => exact fun c => Costs.pure _
    | cons id ids ih =>
      intro c
      refine (Costs.bind (K := 2) (K' := 2 * ids.length) (hw _) fun m => ?_).mono (by simp only [List.length_cons]; omega)
      split
      · exact (Costs.pure _).mono (by omega)
      · exact ih _
  intro ids c
  cases hm : candsC e heads i ids c 0 with
  | none => simp [reads, hm]
  | some r =>
    have := (key ids c 0).2 r hm
    simp only [reads, hm, Option.map_some, Option.getD_some]
    omega

theorem legacyFits_reads (e : BVec) (heads y : Nat) : ∀ (ids : List Nat) (f r : Bool), legacyFits e heads y ids f = some r →
    reads (legacyFitsC e heads y ids f) = ids.length
  | [], f, r, _ => rfl
  | id :: ids, f, r, h => by
    simp only [legacyFits, Option.bind_eq_bind, Option.bind_eq_some_iff] at h
    obtain ⟨b, hb, h⟩ := h
    have := legacyFits_reads e heads y ids (f && b) r h
    have h2 := reads_bind (f := fun b => legacyFitsC e heads y ids (f && b)) (Counts.acc (e.get (y + (id - heads)))) hb (legacyFits_counts e heads y ids (f && b)) h
    have h3 : reads (acc (e.get (y + (id - heads)))) = 1 := by rw [hb]; rfl
    show reads (acc (e.get (y + (id - heads))) >>= fun b => legacyFitsC e heads y ids (f && b)) = _
    rw [h2, h3, this, List.length_cons]
    omega

theorem legacyLoop_reads {e : BVec} (hw : e.words.length = wordSize e.size) (ids : List Nat) (y : Nat)
    (hy : FitsAt (bitAt e.words) ids (lmin ids) y) (hmin : ∀ z, z < y → ¬ FitsAt (bitAt e.words) ids (lmin ids) z)
    (hin : ∀ id ∈ ids, y + (id - lmin ids) < e.size) :
    ∀ n z, z ≤ y → y < z + n → reads (legacyLoopC e ids n z) = ids.length * (y - z + 1)
  | 0, z, h1, h2 => by omega
  | n + 1, z, h1, h2 => by
    obtain ⟨r, er, hr⟩ := legacyFits_spec hw (lmin ids) z ids true (fun id hid => by have := hin id hid; omega)
    have hc := legacyFits_reads _ _ _ _ _ _ er
    have hspec := legacyLoop_spec hw ids y hy hmin hin (n + 1) z h1 h2
    unfold legacyLoopC
    by_cases hz : z = y
    · subst hz
      have hrt := hr.2 ⟨rfl, hy⟩
      rw [reads_bind (q := some ((z : Int) - lmin ids)) (legacyFits_counts e (lmin ids) z ids true) er (by rw [hrt, if_pos rfl]; exact Counts.pure _) rfl]
      rw [hc, hrt, if_pos rfl]
      have : reads (pure ((z : Int) - lmin ids) : M Int) = 0 := rfl
      rw [this]
      simp
    · have hrf : ¬ r = true := fun hc => hmin z (by omega) (hr.1 hc).2
      have ih := legacyLoop_reads hw ids y hy hmin hin n (z + 1) (by omega) (by omega)
      rw [reads_bind (legacyFits_counts e (lmin ids) z ids true) er (by rw [if_neg hrf]; exact legacyLoop_counts e ids n (z + 1))
        (legacyLoop_spec hw ids y hy hmin hin n (z + 1) (by omega) (by omega))]
      rw [hc, if_neg hrf, ih, show y - z + 1 = y - (z + 1) + 1 + 1 by omega, Nat.mul_succ ids.length (y - (z + 1) + 1)]
      omega

theorem yLoop_reads {e : BVec} (h0 : 0 < e.size) (hw : e.words.length = wordSize e.size) (ids : List Nat) (y : Nat)
    (hy : FitsAt (bitAt e.words) ids (lmin ids) y) (hmin : ∀ z, z < y → ¬ FitsAt (bitAt e.words) ids (lmin ids) z) :
    ∀ n i, y < 64 * (i + n) → 64 * i ≤ y → reads (yLoopC e ids n i) ≤ 2 * ids.length * (y / 64 - i + 1)
  | 0, i, h1, h2 => by omega
  | n + 1, i, h1, h2 => by
    obtain ⟨c, ec, hc⟩ := cands_spec h0 hw (lmin ids) i ids (BitVec.allOnes 64)
    have hcost := cands_costs e (lmin ids) i ids (BitVec.allOnes 64)
    have hspec := yLoop_spec h0 hw ids y hy hmin (n + 1) i h1 h2
    unfold yLoopC
    by_cases hz : c ≠ 0#64
    · rw [reads_bind (q := some (((64 * i + Bits.ctz64 c : Nat) : Int) - lmin ids)) (cands_counts e (lmin ids) i ids _) ec
        (by rw [if_pos hz]; exact Counts.pure _) rfl, if_pos hz]
      have : ∀ x : Int, reads (pure x : M Int) = 0 := fun _ => rfl
      rw [this]
      have : 2 * ids.length * 1 ≤ 2 * ids.length * (y / 64 - i + 1) := Nat.mul_le_mul_left _ (by omega)
      omega
    · have hne : ¬ y < 64 * i + 64 := by
        intro hlt
        have hb : c.getLsbD (y - 64 * i) = true := by
          rw [hc _ (by omega), BitVec.getLsbD_allOnes, show 64 * i + (y - 64 * i) = y by omega]
          exact ⟨by simp; omega, hy⟩
        rw [not_not.1 hz] at hb
        simp at hb
      have ih := yLoop_reads h0 hw ids y hy hmin n (i + 1) (by omega) (by omega)
      rw [reads_bind (cands_counts e (lmin ids) i ids _) ec (by rw [if_neg hz]; exact yLoop_counts e ids n (i + 1))
        (yLoop_spec h0 hw ids y hy hmin n (i + 1) (by omega) (by omega)), if_neg hz]
      rw [show y / 64 - i + 1 = y / 64 - (i + 1) + 1 + 1 by omega, Nat.mul_succ (2 * ids.length) (y / 64 - (i + 1) + 1)]
      omega

/-- What the two searches read if `y` is the first place that fits. -/
theorem yFront_reads {e : BVec} (hw : e.words.length = wordSize e.size) (ids : List Nat) (hne : ids ≠ []) (mh y : Nat)
    (hsz : mh + (1 + lmax ids - lmin ids) ≤ e.size) (hle : y ≤ mh) (hy : FitsAt (bitAt e.words) ids (lmin ids) y)
    (hmin : ∀ z, z < y → ¬ FitsAt (bitAt e.words) ids (lmin ids) z) :
    reads (yFrontC true ids e) = ids.length * (y + 1) ∧ reads (yFrontC false ids e) ≤ 2 * ids.length * (y / 64 + 1) := by
  have hmm : ∀ id ∈ ids, lmin ids ≤ id ∧ id ≤ lmax ids := fun id h => ⟨lmin_le _ _ h, le_lmax _ _ h⟩
  have hmx := hmm _ (lmax_mem ids hne)
  constructor
  · unfold yFrontC
    rw [if_pos rfl]
    exact legacyLoop_reads hw ids y hy hmin (fun id hid => by have := hmm id hid; omega) _ 0 (by omega) (by omega)
  · unfold yFrontC
    rw [if_neg (by simp)]
    unfold yCheckC
    have hf := hmm (ids.headD 0) (by cases ids with | nil => exact absurd rfl hne | cons a l => simp)
    have hl := hmm (ids.getLastD 0) (by
      cases ids with
      | nil => exact absurd rfl hne
      | cons a l => rw [List.getLastD_cons]; exact List.getLastD_mem_cons)
    exact yLoop_reads (by omega) hw ids y hy hmin _ 0 (by omega) (by omega)

end Verif.Samc

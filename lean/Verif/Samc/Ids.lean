/-
Lookup and access of the dictionary; serialisation of the table of codes.
-/
import Verif.Samc.Dict
import Verif.Serial.Props
import Verif.Pigeon

namespace Verif.Samc
open Verif.BV Verif.Serial
open Verif.Bits (W64)

theorem poly_mono {a b n : Nat} (h : a ≤ b) : (a + 2) * (1 + (a + 1) * (n * n)) ≤ (b + 2) * (1 + (b + 1) * (n * n)) :=
  Nat.mul_le_mul (by omega) (Nat.add_le_add_left (Nat.mul_le_mul_right _ (by omega)) _)

/-- `build_spec` for any bound on the lengths of the keys. -/
theorem build_ok {W : Nat} {legacy : Bool} {keys : List Key} (hne : keys ≠ []) (hnul : ∀ k ∈ keys, 0 ∉ k) (hW : W ≤ 64)
    {L : Nat} (hL : ∀ k ∈ keys, k.length ≤ L) (hbig : (L + 2) * (1 + (L + 1) * (keys.length * keys.length)) < 2 ^ W) :
    ∃ L' s, L' ≤ L ∧ build W legacy keys = some s ∧ Ok W keys L' s ∧ ∀ k ∈ keys, k.length ≤ L' := by
  obtain ⟨l1, k, hk, e⟩ := lmax_spec keys hne
  have hle : lmax (keys.map List.length) ≤ L := by rw [← e]; exact hL k hk
  obtain ⟨s, es, ok⟩ := build_spec (legacy := legacy) hne hnul hW rfl (Nat.lt_of_le_of_lt (poly_mono hle) hbig)
  exact ⟨_, s, hle, es, ok, l1⟩

theorem buildDict_ok {W : Nat} {keys : List Key} (hne : keys ≠ []) (hnul : ∀ k ∈ keys, 0 ∉ k) (hW : W ≤ 64)
    {L : Nat} (hL : ∀ k ∈ keys, k.length ≤ L) (hbig : (L + 2) * (1 + (L + 1) * (keys.length * keys.length)) < 2 ^ W) :
    ∃ L' t v l P, L' ≤ L ∧ buildDict W keys = some t ∧ Ok W keys L' t.samc ∧ (∀ k ∈ keys, k.length ≤ L') ∧ DOk keys t v l P := by
  obtain ⟨L', s, hle, es, ok, l1⟩ := build_ok (legacy := false) hne hnul hW hL hbig
  obtain ⟨t, v, l, P, et, rfl, d⟩ := setup_spec ok l1 hnul
  exact ⟨L', t, v, l, P, hle, by simp only [buildDict, es, Option.bind_eq_bind, Option.bind_some, et], ok, l1, d⟩

/-- The number of elements below an element. -/
theorem countP_lt {P : List Nat} {a b : Nat} (ha : a ∈ P) (hab : a < b) : P.countP (fun p => p < a) < P.countP (fun p => p < b) := by
  induction P with
  | nil => simp at ha
  | cons p P ih =>
    have hmono : P.countP (fun p => p < a) ≤ P.countP (fun p => p < b) :=
      List.countP_mono_left (fun x _ hx => by simp only [decide_eq_true_eq] at *; omega)
    simp only [List.countP_cons, decide_eq_true_eq]
    rcases List.mem_cons.1 ha with rfl | ha
    · rw [if_neg (by omega), if_pos hab]; omega
    · have := ih ha
      split <;> split <;> omega

theorem countP_lt_length {P : List Nat} {a : Nat} (ha : a ∈ P) : P.countP (fun p => p < a) < P.length := by
  induction P with
  | nil => simp at ha
  | cons p P ih =>
    simp only [List.countP_cons, decide_eq_true_eq, List.length_cons]
    rcases List.mem_cons.1 ha with rfl | ha
    · rw [if_neg (by omega)]
      have := List.countP_le_length (p := fun p => decide (p < a)) (l := P)
      omega
    · have := ih ha
      split <;> omega

theorem countP_inj {P : List Nat} {a b : Nat} (ha : a ∈ P) (hb : b ∈ P) (h : P.countP (fun p => p < a) = P.countP (fun p => p < b)) : a = b := by
  rcases Nat.lt_trichotomy a b with hl | he | hl
  · have := countP_lt ha hl; omega
  · exact he
  · have := countP_lt hb hl; omega

/-- A list of distinct numbers below its length contains all of them. -/
theorem full_of_nodup {l : List Nat} (hn : l.Nodup) (hb : ∀ x ∈ l, x < l.length) {i : Nat} (hi : i < l.length) : i ∈ l := by
  by_contra hni
  have := nodup_bound l.length (i :: l) (List.nodup_cons.2 ⟨hni, hn⟩) (by
    intro x hx
    rcases List.mem_cons.1 hx with rfl | hx
    · exact hi
    · exact hb x hx)
  simp at this

theorem lookup_eq {W : Nat} {keys : List Key} {L : Nat} {t : Dict} {v : BVec} {l : List Bool} {P : List Nat} (h : Ok W keys L t.samc) (hW : W ≤ 64)
    (hL : ∀ k ∈ keys, k.length ≤ L) (hne : keys ≠ []) (hnul : ∀ k ∈ keys, 0 ∉ k) (d : DOk keys t v l P) (q : Key) (h0 : (0 : Byte) ∉ q) :
    t.lookup q = some (if q ∈ keys then P.countP (fun p => p < pos t.samc.code (ext q)) else searchError) := by
  obtain ⟨sb, es, hr⟩ := Succ.C20_rank true v l d.built
  obtain rfl : sb = t.leaves := Option.some.inj (es.symm.trans d.leaves)
  simp only [Dict.lookup, find_root h hW hL hne hnul q h0, Option.bind_eq_bind, Option.bind_some]
  by_cases hq : q ∈ keys
  · simp only [if_pos hq]
    have hm : pos t.samc.code (ext q) ∈ P := by
      rw [d.perm, List.mem_map]
      exact ⟨q, List.mem_dedup.2 hq, rfl⟩
    have hlt := (List.getElem?_eq_some_iff.1 ((d.ones _).2 hm)).1
    rw [(hr _ hlt).1, count_take l P d.nodup d.ones]
  · simp only [if_neg hq]
    rfl

theorem id_lt {keys : List Key} {t : Dict} {v : BVec} {l : List Bool} {P : List Nat} (d : DOk keys t v l P) {k : Key} (hk : k ∈ keys) :
    pos t.samc.code (ext k) ∈ P ∧ P.countP (fun p => p < pos t.samc.code (ext k)) < keys.dedup.length := by
  have hm : pos t.samc.code (ext k) ∈ P := by
    rw [d.perm, List.mem_map]
    exact ⟨k, List.mem_dedup.2 hk, rfl⟩
  have := countP_lt_length hm
  rw [show P.length = keys.dedup.length by rw [d.perm]; simp] at this
  exact ⟨hm, this⟩

theorem id_inj {keys : List Key} {t : Dict} {v : BVec} {l : List Bool} {P : List Nat} (d : DOk keys t v l P) {k k' : Key} (hk : k ∈ keys) (hk' : k' ∈ keys)
    (he : P.countP (fun p => p < pos t.samc.code (ext k)) = P.countP (fun p => p < pos t.samc.code (ext k'))) : k = k' := by
  have e := countP_inj (id_lt d hk).1 (id_lt d hk').1 he
  have hn := d.nodup
  rw [d.perm] at hn
  exact List.inj_on_of_nodup_map hn (List.mem_dedup.2 hk) (List.mem_dedup.2 hk') e

theorem id_onto {keys : List Key} {t : Dict} {v : BVec} {l : List Bool} {P : List Nat} (d : DOk keys t v l P) {i : Nat} (hi : i < keys.dedup.length) :
    ∃ k ∈ keys, P.countP (fun p => p < pos t.samc.code (ext k)) = i := by
  have hm := full_of_nodup (l := keys.dedup.map (fun k => P.countP (fun p => p < pos t.samc.code (ext k)))) (i := i) (by
      refine List.Nodup.map_on ?_ (List.nodup_dedup keys)
      intro k hk k' hk' he
      exact id_inj d (List.mem_dedup.1 hk) (List.mem_dedup.1 hk') he) (by
      intro x hx
      obtain ⟨k, hk, rfl⟩ := List.mem_map.1 hx
      rw [List.length_map]
      exact (id_lt d (List.mem_dedup.1 hk)).2) (by simpa using hi)
  obtain ⟨k, hk, rfl⟩ := List.mem_map.1 hm
  exact ⟨k, List.mem_dedup.1 hk, rfl⟩

/-- If `select` finds the place of a leaf then `access` reads its key. -/
theorem access_eq {W : Nat} {keys : List Key} {L : Nat} {t : Dict} {v : BVec} {l : List Bool} {P : List Nat} (h : Ok W keys L t.samc) (hW : W ≤ 64)
    (hL : ∀ k ∈ keys, k.length ≤ L) (d : DOk keys t v l P) (selF : W64 → Nat → Option Nat) {i p : Nat} (hs : t.leaves.select selF i = some p)
    (h1 : l[p]? = some true) (h2 : (l.take p).count true = i) : ∃ k ∈ keys, t.access selF i = some k ∧ P.countP (fun p => p < pos t.samc.code (ext k)) = i := by
  have hm := (d.ones p).1 h1
  rw [d.perm, List.mem_map] at hm
  obtain ⟨k, hk, rfl⟩ := hm
  have hk := List.mem_dedup.1 hk
  have hp : Path keys (ext k) := ⟨k, hk, List.prefix_rfl⟩
  refine ⟨k, hk, ?_, ?_⟩
  · simp only [Dict.access, hs, upperBound_eq h hL hp, Nat.add_sub_cancel, accessLoop_spec h hW hL _ _ [] rfl hp, Option.bind_eq_bind, Option.bind_some,
      List.append_nil, Option.pure_def]
    rw [if_neg (by simp [ext])]
    simp [ext]
  · rw [← h2, count_take l P d.nodup d.ones]

theorem ones_count {keys : List Key} {t : Dict} {v : BVec} {l : List Bool} {P : List Nat} (d : DOk keys t v l P) : l.count true = keys.dedup.length := by
  have := count_take l P d.nodup d.ones l.length
  rw [List.take_length] at this
  rw [this, List.countP_eq_length.2, d.perm, List.length_map]
  intro p hp
  have := (List.getElem?_eq_some_iff.1 ((d.ones p).2 hp)).1
  simpa using this

theorem readRows_write (k : Nat) : ∀ (t : List (List Nat)) (s : Stream), (∀ row ∈ t, row.length = 256 ∧ ∀ x ∈ row, x < 256 ^ k) →
    readRows k t.length ((t.map (fun row => (row.map (writeVal k)).flatten)).flatten ++ s) = some (t, s)
  | [], s, _ => rfl
  | row :: t, s, h => by
    obtain ⟨h1, h2⟩ := h row (List.mem_cons_self ..)
    have e := readElems_write k row h2 ((t.map (fun row => (row.map (writeVal k)).flatten)).flatten ++ s)
    rw [h1] at e
    simp only [List.length_cons, readRows, List.map_cons, List.flatten_cons, List.append_assoc, e, Option.bind_eq_bind, Option.bind_some, Option.pure_def,
      readRows_write k t s (fun r hr => h r (List.mem_cons_of_mem _ hr))]

theorem write_elems_length (k : Nat) (l : List Nat) : ((l.map (writeVal k)).flatten).length = k * l.length := by
  induction l with
  | nil => rfl
  | cons a l ih => simp only [List.map_cons, List.flatten_cons, List.length_append, writeVal_length, ih, List.length_cons, Nat.mul_add]; omega

theorem write_rows_length (k : Nat) : ∀ (t : List (List Nat)), (∀ row ∈ t, row.length = 256) →
    ((t.map (fun row => (row.map (writeVal k)).flatten)).flatten).length = 256 * k * t.length
  | [], _ => rfl
  | row :: t, h => by
    simp only [List.map_cons, List.flatten_cons, List.length_append, write_elems_length, h row (List.mem_cons_self ..),
      write_rows_length k t (fun r hr => h r (List.mem_cons_of_mem _ hr)), List.length_cons, Nat.mul_add]
    rw [Nat.mul_comm k 256]
    omega

/-- What is written is read back when all values fit their types. -/
theorem samc_roundtrip {W : Nat} {s : Samc} (h8 : W % 8 = 0) (hrow : ∀ row ∈ s.code, row.length = 256 ∧ ∀ x ∈ row, x < 2 ^ W)
    (hhead : ∀ x ∈ s.head, x < 2 ^ W) (hc : s.code.length < 2 ^ 64) (hh : s.head.length < 2 ^ 64) (hs : s.storage.length < 2 ^ 64) (st : Stream) :
    read W (s.write W ++ st) = some (s, st) ∧ (s.write W).length = s.sizeInBytes W := by
  have hp : (256 : Nat) ^ (W / 8) = 2 ^ W := by
    rw [show (256 : Nat) = 2 ^ 8 from rfl, ← Nat.pow_mul]
    congr 1
    omega
  have h256 : (256 : Nat) ^ 8 = 2 ^ 64 := by decide
  constructor
  · simp only [read, Samc.write, List.append_assoc]
    rw [readString_writeString _ (by omega)]
    simp only [Option.bind_eq_bind, Option.bind_some, readTable, writeTable, List.append_assoc]
    rw [readVal_writeVal 8 _ (by omega)]
    simp only [Option.bind_some, readRows_write _ _ _ (fun row hr => by rw [hp]; exact hrow row hr)]
    rw [readVec_writeVec _ _ (fun x hx => by rw [hp]; exact hhead x hx) (by omega)]
    rfl
  · simp only [Samc.write, Samc.sizeInBytes, List.length_append, C47_size_vec, writeTable, writeString, writeVal_length,
      write_rows_length _ _ (fun row hr => (hrow row hr).1)]
    omega

theorem ok_roundtrip {W : Nat} {keys : List Key} {L : Nat} {s : Samc} (h : Ok W keys L s) (hne : keys ≠ []) (hW : W ≤ 64) (h8 : W % 8 = 0)
    (hbig : (L + 2) * (1 + (L + 1) * (keys.length * keys.length)) < 2 ^ W) (st : Stream) :
    read W (s.write W ++ st) = some (s, st) ∧ (s.write W).length = s.sizeInBytes W := by
  have hW64 : 2 ^ W ≤ 2 ^ 64 := Nat.pow_le_pow_right (by decide) hW
  have htot := h.total
  have hL2 : L + 3 < 2 ^ W := by
    have hn : 1 ≤ keys.length := List.length_pos_iff.2 hne
    have h1 : 1 ≤ (L + 1) * (keys.length * keys.length) := Nat.mul_pos (by omega) (Nat.mul_pos hn hn)
    have : (L + 2) * 2 ≤ (L + 2) * (1 + (L + 1) * (keys.length * keys.length)) := Nat.mul_le_mul_left _ (by omega)
    omega
  refine samc_roundtrip h8 (fun row hrow => ⟨h.rows row hrow, ?_⟩) h.hsmall (by rw [h.clen]; omega) (by rw [h.hlen]; omega) (by omega) st
  intro x hx
  obtain ⟨i, hi, rfl⟩ := List.getElem_of_mem hrow
  obtain ⟨j, hj, rfl⟩ := List.getElem_of_mem hx
  have hs := h.small i (by rw [h.clen] at hi; omega) j
  rw [List.getD_eq_getElem?_getD (l := s.code), List.getElem?_eq_getElem hi, Option.getD_some, List.getD_eq_getElem?_getD (l := s.code[i]),
    List.getElem?_eq_getElem hj, Option.getD_some] at hs
  omega

end Verif.Samc

/-
Property theorem C85: what `DacVector::ShowStatus` prints.
-/
import Verif.Dac.Props
import Verif.Dac.Status

namespace Verif.Dac
open Verif.Bits Verif.Serial

/-- A `size_t` as an `int`. -/
def asInt (n : Nat) : Int := (BitVec.ofNat 32 n).toInt

theorem addInt_asInt (a x : Nat) : addInt (asInt a) x = asInt (a + x) := by
  unfold addInt asInt
  congr 1
  rw [BitVec.ofInt_add, BitVec.ofInt_toInt, BitVec.ofInt_natCast, BitVec.ofNat_add]

theorem asInt_small {n : Nat} (h : n < 2 ^ 31) : asInt n = n := by
  unfold asInt
  rw [BitVec.toInt_eq_toNat_of_lt]
  · rw [BitVec.toNat_ofNat, Nat.mod_eq_of_lt (by omega)]
  · rw [BitVec.toNat_ofNat, Nat.mod_eq_of_lt (by omega)]; omega

theorem pathLoop_spec (d : Dac) (n : Nat) (hn : 2 ≤ n) (hp : d.paths.length = n - 1) : ∀ (k i a : Nat), i ≤ n - 1 → n - 1 - i < k →
    pathLoop d n k i (asInt a) = some (asInt (a + ((d.paths.drop i).map (Succ.SBV.sizeInBytes false)).sum)) := by
  intro k
  induction k with
  | zero => intro i a _ h; omega
  | succ k ih =>
    intro i a h1 h2
    unfold pathLoop
    by_cases hi : i < n - 1
    · rw [if_pos (by omega), List.getElem?_eq_getElem (by omega)]
      simp only [Option.bind_eq_bind, Option.bind_some]
      rw [addInt_asInt, ih (i + 1) _ (by omega) (by omega)]
      conv => rhs; rw [List.drop_eq_getElem_cons (by omega : i < d.paths.length), List.map_cons, List.sum_cons]
      rw [Nat.add_assoc]
    · rw [if_neg (by omega), List.drop_eq_nil_of_le (by omega)]
      rfl

theorem layerLoop_spec (d : Dac) : ∀ (k i a : Nat), i + k = d.layers.length →
    layerLoop d k i (asInt a) = some (asInt (a + ((d.layers.drop i).map Fit.FVec.sizeInBytes).sum)) := by
  intro k
  induction k with
  | zero =>
    intro i a h
    rw [List.drop_eq_nil_of_le (by omega)]
    rfl
  | succ k ih =>
    intro i a h
    unfold layerLoop
    rw [List.getElem?_eq_getElem (by omega)]
    simp only [Option.bind_eq_bind, Option.bind_some]
    rw [addInt_asInt, ih (i + 1) _ (by omega)]
    conv => rhs; rw [List.drop_eq_getElem_cons (by omega : i < d.layers.length), List.map_cons, List.sum_cons]
    rw [Nat.add_assoc]

theorem unitLines_spec (d : Dac) : ∀ (k i : Nat), i + k = d.units.length →
    unitLines d k i = some ((d.units.drop i).map (fun u => s!"[{u}]")) := by
  intro k
  induction k with
  | zero =>
    intro i h
    rw [List.drop_eq_nil_of_le (by omega)]
    rfl
  | succ k ih =>
    intro i h
    unfold unitLines
    rw [List.getElem?_eq_getElem (by omega)]
    simp only [Option.bind_eq_bind, Option.bind_some]
    rw [ih (i + 1) (by omega)]
    conv => rhs; rw [List.drop_eq_getElem_cons (by omega : i < d.units.length), List.map_cons]
    rfl

/-- C85, as far as it holds: for a vector with at least two layers `ShowStatus` prints the number of elements, the size in bytes, and the widths;
the parts of the size in paths and layers are printed as `int`, so they are right if the size is below `2 ^ 31`, and then they are the size but for
the fixed part. Missing: vectors with one layer, see `C85_refuted`. -/
theorem C85_status_partial (fl : Nat → Nat → String) (split : List Nat → Option (List Nat)) (list units : List Nat) (hne : list ≠ [])
    (hl : ∀ v ∈ list, v < 2 ^ 63) (hn : list.length < 2 ^ 31) (hu : UnitsOk list units) (h2 : 2 ≤ units.length) :
    ∃ d bytes paths layers, make split list units = some d ∧ d.sizeInBytes = some bytes ∧ bytes = 16 + 8 * units.length + paths + layers ∧
      d.showStatus fl = some (["--- Stat of DACs  ---", s!"number of elements: {list.length}", s!"size:   {bytes}",
        s!"sizeBits/element:   {fl (bytes * 8) list.length}", s!"size bits:   {(BitVec.ofNat 32 paths).toInt}",
        s!"size flows:   {(BitVec.ofNat 32 layers).toInt}", "--- element map ---", s!"num_units: {units.length}"] ++
        units.map (fun u => s!"[{u}]")) ∧
      (bytes < 2 ^ 31 → (BitVec.ofNat 32 paths).toInt = paths ∧ (BitVec.ofNat 32 layers).toInt = layers) := by
  obtain ⟨d, e, hok⟩ := ok_of_units split list units hne hl hn hu
  have hs := (shows_of_ok hok hu.ne (fun v hv => ⟨hl v hv, hu.cover v hv⟩)).1
  have hb : d.sizeInBytes = some (16 + 8 * units.length + (d.paths.map (Succ.SBV.sizeInBytes false)).sum +
      (d.layers.map Fit.FVec.sizeInBytes).sum) := by
    unfold Dac.sizeInBytes
    simp only [hok.num, hok.us, Option.bind_eq_bind, Option.bind_some, Option.pure_def]
    rw [List.take_of_length_le (Nat.le_of_eq hok.llen), List.take_of_length_le (Nat.le_of_eq hok.plen)]
    unfold sizeVec
    congr 1
    omega
  refine ⟨d, _, _, _, e, hb, rfl, ?_, fun hlt => ⟨asInt_small (by omega), asInt_small (by omega)⟩⟩
  unfold Dac.showStatus
  have e1 := pathLoop_spec d units.length h2 hok.plen (units.length + 1) 0 0 (by omega) (by omega)
  have e2 := layerLoop_spec d units.length 0 0 (by have := hok.llen; omega)
  have e3 := unitLines_spec d units.length 0 (by rw [hok.us]; omega)
  rw [show asInt 0 = 0 from rfl] at e1 e2
  simp only [hs, hb, hok.num, e1, e2, e3, Option.bind_eq_bind, Option.bind_some, List.drop_zero, Nat.zero_add, hok.us]
  rfl

example := C85_status_partial (fun _ _ => "0.5") (fun _ => none) [5, 300, 7] [4, 5] (by decide) (by decide) (by decide) ⟨by decide, by decide, by decide, ⟨300, by decide, by decide⟩⟩ (by decide)

/-- C85 fails for every vector with one layer: `ShowStatus` accesses a path although there is none. -/
theorem C85_refuted (fl : Nat → Nat → String) (split : List Nat → Option (List Nat)) (list units : List Nat) (hne : list ≠ [])
    (hl : ∀ v ∈ list, v < 2 ^ 63) (hn : list.length < 2 ^ 31) (hu : UnitsOk list units) (h1 : units.length = 1) :
    ∃ d, make split list units = some d ∧ d.showStatus fl = none := by
  obtain ⟨d, e, hok⟩ := ok_of_units split list units hne hl hn hu
  have hs := (shows_of_ok hok hu.ne (fun v hv => ⟨hl v hv, hu.cover v hv⟩)).1
  have hp : d.paths[0]? = none := List.getElem?_eq_none (by rw [hok.plen]; omega)
  refine ⟨d, e, ?_⟩
  unfold Dac.showStatus
  simp only [hs, hok.num, Option.bind_eq_bind, Option.bind_some, h1]
  cases d.sizeInBytes with
  | none => rfl
  | some b => simp [pathLoop, hp]

/-- C85: a default constructed object can be shown: no elements, no layers. -/
theorem C85_default (fl : Nat → Nat → String) : ∃ d bytes, default = some d ∧ d.sizeInBytes = some bytes ∧ ∃ bits : Int, d.showStatus fl = some
    ["--- Stat of DACs  ---", "number of elements: 0", s!"size:   {bytes}", s!"sizeBits/element:   {fl (bytes * 8) 0}", s!"size bits:   {bits}",
      "size flows:   0", "--- element map ---", "num_units: 0"] := by
  refine ⟨_, _, rfl, rfl, _, rfl⟩

/-- The hypotheses can be met with two layers and with one. -/
example : UnitsOk [5, 300, 7] [4, 5] ∧ 2 ≤ [4, 5].length :=
  ⟨⟨by decide, by decide, by decide, ⟨300, by decide, by decide⟩⟩, by decide⟩
example : UnitsOk [5, 3, 7] [3] ∧ [3].length = 1 := ⟨⟨by decide, by decide, by decide, ⟨7, by decide, by decide⟩⟩, rfl⟩

end Verif.Dac

import Verif.FixedPoint.Model
import Mathlib.Tactic.Linarith
import Mathlib.Tactic.Ring
import Mathlib.Tactic.FieldSimp
import Mathlib.Tactic.NormNum
import Mathlib.Algebra.Order.Field.Basic

/-! C55: fixed-point numbers. -/
namespace Verif.FixedPoint
open Verif

/-- The number a numerator stands for. -/
def value (f : Fmt) (a : Int) : ℚ := (a : ℚ) / f.div

theorem div_pos' {f : Fmt} (hf : f.Ok) : (0 : ℚ) < f.div := by exact_mod_cast hf.2.1

theorem wrap_id {bits : Nat} (hb : 0 < bits) {x : Int} (h : InRange bits x) : wrap bits x = x := by
  unfold wrap
  obtain ⟨k, rfl⟩ : ∃ k, bits = k + 1 := ⟨bits - 1, by omega⟩
  obtain ⟨h1, h2⟩ := h
  rw [Nat.add_sub_cancel] at h1 h2
  have hp : ((2 ^ (k + 1) : Nat) : Int) = 2 * 2 ^ k := by push_cast; ring
  apply Int.bmod_eq_of_le_mul_two <;> rw [hp] <;> omega

theorem wrap_range {bits : Nat} (hb : 0 < bits) (x : Int) : InRange bits (wrap bits x) := by
  unfold wrap InRange
  obtain ⟨k, rfl⟩ : ∃ k, bits = k + 1 := ⟨bits - 1, by omega⟩
  have hpos : 0 < 2 ^ (k + 1) := by positivity
  have h1 := Int.le_bmod (x := x) hpos
  have h2 := Int.bmod_lt (x := x) hpos
  have hp : ((2 ^ (k + 1) : Nat) : Int) = 2 * 2 ^ k := by push_cast; ring
  rw [hp] at h1 h2
  rw [Nat.add_sub_cancel]
  omega

theorem bits_pos {f : Fmt} (hf : f.Ok) : 0 < f.bits := by rcases hf.1 with h | h | h | h <;> omega

theorem arith_range {f : Fmt} (hf : f.Ok) {x : Int} (h : InRange f.bits x) : arith f.bits x = .ok x := by
  unfold arith
  split_ifs
  · rw [wrap_id (bits_pos hf) h]
  · rfl

/-- **C55, sums.** In every format, for every two numbers: if the exact sum, difference or negation is representable it is the result. -/
theorem C55_sums (f : Fmt) (hf : f.Ok) (a b : Int) :
    (InRange f.bits (a + b) → ∃ c, add f a b = .ok c ∧ value f c = value f a + value f b) ∧
    (InRange f.bits (a - b) → ∃ c, sub f a b = .ok c ∧ value f c = value f a - value f b) ∧
    (InRange f.bits (-a) → ∃ c, neg f a = .ok c ∧ value f c = - value f a) := by
  refine ⟨fun h => ⟨_, arith_range hf h, ?_⟩, fun h => ⟨_, arith_range hf h, ?_⟩, fun h => ⟨_, arith_range hf h, ?_⟩⟩ <;>
    unfold value <;> push_cast <;> ring

/-- Sums that are not representable: undefined behaviour from 32 bits on, otherwise the result is a representable number that differs from the exact sum by a multiple of `2^bits` units. -/
theorem C55_sum_overflow (f : Fmt) (hf : f.Ok) (a b : Int) (h : ¬ InRange f.bits (a + b)) :
    (32 ≤ f.bits → add f a b = .ub) ∧ (f.bits < 32 → ∃ c, add f a b = .ok c ∧ InRange f.bits c ∧ ∃ k : Int, c = a + b + k * 2 ^ f.bits) := by
  unfold add arith
  refine ⟨fun hb => by rw [if_neg (by omega), if_neg h], fun hb => ?_⟩
  rw [if_pos hb]
  refine ⟨_, rfl, wrap_range (bits_pos hf) _, ?_⟩
  unfold wrap
  have h1 : ((2 ^ f.bits : Nat) : Int) ∣ (a + b) - Int.bmod (a + b) (2 ^ f.bits) := Int.dvd_self_sub_bmod
  obtain ⟨k, hk⟩ := h1
  refine ⟨-k, ?_⟩
  push_cast at hk
  linarith

/-- **C55, group laws.** Without overflow of the exact results, addition is associative and commutative and subtraction undoes it. -/
theorem C55_group (f : Fmt) (hf : f.Ok) (a b c : Int) (h1 : InRange f.bits (a + b)) (h2 : InRange f.bits (b + c)) (h4 : InRange f.bits a) :
    add f a b = add f b a ∧ (add f a b).bind (fun s => add f s c) = (add f b c).bind (fun s => add f a s) ∧ (add f a b).bind (fun s => sub f s b) = .ok a := by
  refine ⟨by unfold add; rw [add_comm], ?_, ?_⟩
  · unfold add
    rw [arith_range hf h1, arith_range hf h2]
    simp only [Res.bind]
    rw [add_assoc]
  · unfold add sub
    rw [arith_range hf h1]
    simp only [Res.bind]
    rw [show a + b - b = a by ring]
    exact arith_range hf h4

/-- **C55, order.** Comparison is comparison of the represented numbers. -/
theorem C55_compare (f : Fmt) (hf : f.Ok) (a b : Int) : (lt a b = true ↔ value f a < value f b) ∧ (eq a b = true ↔ value f a = value f b) := by
  have hd := div_pos' hf
  unfold lt eq value
  refine ⟨?_, ?_⟩
  · rw [decide_eq_true_iff, div_lt_div_iff_of_pos_right hd]
    exact_mod_cast Iff.rfl
  · rw [decide_eq_true_iff, div_left_inj' hd.ne']
    exact_mod_cast Iff.rfl

theorem tdiv_close (x y : Int) (hy : y ≠ 0) : |((x.tdiv y : Int) : ℚ) - (x : ℚ) / y| < 1 ∧ |((x.tdiv y : Int) : ℚ)| ≤ |(x : ℚ) / y| := by
  have hyq : (y : ℚ) ≠ 0 := by exact_mod_cast hy
  have hpos : (0 : ℚ) < |(y : ℚ)| := abs_pos.2 hyq
  have h1 := Int.tmod_add_mul_tdiv x y
  have h2 : |x.tmod y| < |y| := by
    rw [Int.abs_eq_natAbs, Int.abs_eq_natAbs, Int.natAbs_tmod]
    exact_mod_cast Nat.mod_lt _ (Int.natAbs_pos.2 hy)
  have h2q : |((x.tmod y : Int) : ℚ)| < |(y : ℚ)| := by exact_mod_cast h2
  have e1 : ((x.tdiv y : Int) : ℚ) - (x : ℚ) / y = -((x.tmod y : Int) : ℚ) / y := by
    have hq : ((x.tmod y : Int) : ℚ) + y * ((x.tdiv y : Int) : ℚ) = x := by exact_mod_cast h1
    field_simp
    linarith
  refine ⟨?_, ?_⟩
  · rw [e1, abs_div, abs_neg, div_lt_one hpos]
    exact h2q
  · rw [abs_div, le_div_iff₀ hpos, ← abs_mul]
    have : |x.tdiv y * y| ≤ |x| := by
      rw [Int.abs_eq_natAbs, Int.abs_eq_natAbs, Int.natAbs_mul, Int.natAbs_tdiv]
      exact_mod_cast Nat.div_mul_le_self _ _
    exact_mod_cast this

/-- **C55, products up to 32 bits.** If the product truncated to the format is representable, the result differs from the exact product by less than one unit and is not larger in magnitude. -/
theorem C55_product (f : Fmt) (hf : f.Ok) (hb : f.bits ≠ 64) (a b : Int) (h : InRange f.bits ((a * b).tdiv f.div)) :
    ∃ c, mul f a b = .ok c ∧ |value f c - value f a * value f b| < 1 / f.div ∧ |value f c| ≤ |value f a * value f b| := by
  have hd := div_pos' hf
  obtain ⟨h1, h2⟩ := tdiv_close (a * b) f.div (by have := hf.2.1; omega)
  refine ⟨_, by unfold mul; rw [if_neg hb, wrap_id (bits_pos hf) h], ?_, ?_⟩
  · have e : value f ((a * b).tdiv f.div) - value f a * value f b = (((a * b).tdiv f.div : Int) - ((a * b : Int) : ℚ) / ((f.div : Int) : ℚ)) / f.div := by
      unfold value
      push_cast
      field_simp
    rw [e, abs_div, abs_of_pos hd, div_lt_div_iff_of_pos_right hd]
    exact h1
  · have e : value f a * value f b = (((a * b : Int) : ℚ) / ((f.div : Int) : ℚ)) / f.div := by
      unfold value
      push_cast
      field_simp
    rw [e]
    unfold value
    rw [abs_div, abs_div _ (f.div : ℚ), abs_of_pos hd, div_le_div_iff_of_pos_right hd]
    exact h2

/-- **C55, quotients up to 32 bits.** Division by zero is undefined behaviour; otherwise, if the truncated quotient is representable, the result differs from the exact quotient by less than one unit. -/
theorem C55_quotient (f : Fmt) (hf : f.Ok) (hb : f.bits ≠ 64) (a b : Int) :
    (b = 0 → divide f a b = .ub) ∧
    (b ≠ 0 → InRange f.bits ((a * f.div).tdiv b) → ∃ c, divide f a b = .ok c ∧ |value f c - value f a / value f b| < 1 / f.div ∧ |value f c| ≤ |value f a / value f b|) := by
  have hd := div_pos' hf
  refine ⟨fun h => by unfold divide; rw [if_pos h], fun hb0 h => ?_⟩
  obtain ⟨h1, h2⟩ := tdiv_close (a * f.div) b hb0
  have hbq : (b : ℚ) ≠ 0 := by exact_mod_cast hb0
  have e0 : value f a / value f b = (((a * f.div : Int) : ℚ) / b) / f.div := by
    unfold value
    push_cast
    field_simp
  refine ⟨_, by unfold divide; rw [if_neg hb0, if_neg hb, wrap_id (bits_pos hf) h], ?_, ?_⟩
  · rw [e0]
    unfold value
    rw [← sub_div, abs_div, abs_of_pos hd, div_lt_div_iff_of_pos_right hd]
    exact h1
  · rw [e0]
    unfold value
    rw [abs_div, abs_div _ (f.div : ℚ), abs_of_pos hd, div_le_div_iff_of_pos_right hd]
    exact h2

/-! ### Rounding -/

theorem rne_close (x : ℚ) : |(rne x : ℚ) - x| ≤ 1 / 2 := by
  have h1 := Int.floor_le x
  have h2 := Int.lt_floor_add_one x
  unfold rne
  rw [abs_le]
  split_ifs with h3 h4 h5 <;> push_cast <;> constructor <;> linarith

theorem rne_int (n : Int) : rne (n : ℚ) = n := by
  unfold rne
  rw [Int.floor_intCast]
  norm_num

theorem roundBits_close (p : Nat) (x : ℚ) : |roundBits p x - x| ≤ |x| / 2 ^ p := by
  by_cases hx : x = 0
  · subst hx
    simp [roundBits, rne]
  · have hpos : 0 < |x| := abs_pos.2 hx
    have h1 := Int.zpow_log_le_self (b := 2) (by norm_num) hpos
    unfold roundBits
    simp only
    set L := Int.log 2 |x|
    have hu : (0 : ℚ) < 2 ^ (L - p + 1) := zpow_pos (by norm_num) _
    have h2 := rne_close (x / 2 ^ (L - p + 1))
    have e : (rne (x / 2 ^ (L - p + 1)) : ℚ) * 2 ^ (L - p + 1) - x = ((rne (x / 2 ^ (L - p + 1)) : ℚ) - x / 2 ^ (L - p + 1)) * 2 ^ (L - p + 1) := by
      field_simp
    rw [e, abs_mul, abs_of_pos hu]
    have h3 : |(rne (x / 2 ^ (L - p + 1)) : ℚ) - x / 2 ^ (L - p + 1)| * 2 ^ (L - p + 1) ≤ 1 / 2 * 2 ^ (L - p + 1) := mul_le_mul_of_nonneg_right h2 hu.le
    refine h3.trans ?_
    have e2 : (1 / 2 : ℚ) * 2 ^ (L - p + 1) = 2 ^ L / 2 ^ p := by
      rw [zpow_add₀ (by norm_num), zpow_sub₀ (by norm_num), zpow_natCast]
      norm_num
      ring
    rw [e2]
    have h4 : ((2 : ℚ)) ^ L ≤ |x| := by exact_mod_cast h1
    exact div_le_div_of_nonneg_right h4 (by positivity)

/-- Integers that fit the significand are not rounded. -/
theorem roundBits_int (p : Nat) (n : Int) (h : |n| < 2 ^ p) : roundBits p n = n := by
  by_cases hn : n = 0
  · subst hn
    simp [roundBits, rne]
  · have hq : (0 : ℚ) < |(n : ℚ)| := abs_pos.2 (by exact_mod_cast hn)
    have hlt : Int.log 2 |(n : ℚ)| < p := by
      rw [← Int.lt_zpow_iff_log_lt (by norm_num) hq]
      rw [zpow_natCast]
      exact_mod_cast h
    unfold roundBits
    simp only
    set L := Int.log 2 |(n : ℚ)|
    obtain ⟨k, hk⟩ : ∃ k : Nat, (p : Int) - 1 - L = k := ⟨((p : Int) - 1 - L).toNat, by omega⟩
    have e : ((2 : ℚ)) ^ (L - p + 1) = (2 ^ k)⁻¹ := by
      rw [show L - p + 1 = -(k : Int) by omega, zpow_neg, zpow_natCast]
    rw [e, div_inv_eq_mul]
    have e2 : (n : ℚ) * 2 ^ k = ((n * 2 ^ k : Int) : ℚ) := by push_cast; ring
    rw [e2, rne_int]
    push_cast
    field_simp

theorem truncTo_spec {bits : Nat} {x : ℚ} {t : Int} (h : truncTo bits x = .ok t) : |(t : ℚ) - x| < 1 ∧ InRange bits t := by
  unfold truncTo at h
  by_cases h0 : 0 ≤ x
  · simp only [if_pos h0] at h
    split at h
    · rename_i hr
      have ht := Res.ok.inj h
      subst ht
      refine ⟨?_, hr⟩
      rw [abs_lt]
      have h1 := Int.floor_le x
      have h2 := Int.lt_floor_add_one x
      constructor <;> linarith
    · cases h
  · simp only [if_neg h0] at h
    split at h
    · rename_i hr
      have ht := Res.ok.inj h
      subst ht
      refine ⟨?_, hr⟩
      rw [abs_lt]
      have h1 := Int.le_ceil x
      have h2 := Int.ceil_lt_add_one x
      constructor <;> linarith
    · cases h

/-- **C55, products of 64 bits.** If the product is computed at all, the result differs from the exact product by less than one unit plus two roundings of `long double`, in total less than three units; while the product
of the numerators is below `2^64`, only the rounding of the quotient remains. -/
theorem C55_product_64 (f : Fmt) (hf : f.Ok) (hb : f.bits = 64) (a b c : Int) (h : mul f a b = .ok c) :
    |value f c - value f a * value f b| < (1 + |(a * b : ℚ) / f.div| * (2 / 2 ^ 64 + 1 / 2 ^ 128)) / f.div ∧
    (|a * b| < 2 ^ 64 → |value f c - value f a * value f b| < (1 + |(a * b : ℚ) / f.div| / 2 ^ 64) / f.div) := by
  have hd := div_pos' hf
  unfold mul at h
  rw [if_pos hb] at h
  obtain ⟨h1, -⟩ := truncTo_spec h
  have e : value f c - value f a * value f b = ((c : ℚ) - (a * b) / f.div) / f.div := by
    unfold value
    field_simp
  rw [e, abs_div, abs_of_pos hd, div_lt_div_iff_of_pos_right hd, div_lt_div_iff_of_pos_right hd]
  set P := (a * b : ℚ) with hP
  have r2 := roundBits_close 64 (roundBits 64 P / f.div)
  refine ⟨?_, ?_⟩
  · have r1 := roundBits_close 64 P
    set p := roundBits 64 P
    set q := roundBits 64 (p / f.div)
    have s1 : |p / f.div - P / f.div| ≤ |P / f.div| / 2 ^ 64 := by
      rw [← sub_div, abs_div, abs_div, abs_of_pos hd, div_right_comm]
      exact div_le_div_of_nonneg_right r1 hd.le
    have s2 : |p / f.div| ≤ |P / f.div| * (1 + 1 / 2 ^ 64) := by
      have := abs_sub_abs_le_abs_sub (p / f.div) (P / f.div)
      have e3 : |P / (f.div : ℚ)| * (1 + 1 / 2 ^ 64) = |P / f.div| + |P / f.div| / 2 ^ 64 := by ring
      linarith
    have s3 : |p / f.div| / 2 ^ 64 ≤ |P / f.div| * (1 + 1 / 2 ^ 64) / 2 ^ 64 := div_le_div_of_nonneg_right s2 (by positivity)
    have t1 := abs_sub_le (c : ℚ) q (P / f.div)
    have t2 := abs_sub_le q (p / f.div) (P / f.div)
    have e4 : 1 + |P / (f.div : ℚ)| * (2 / 2 ^ 64 + 1 / 2 ^ 128) = 1 + (|P / f.div| * (1 + 1 / 2 ^ 64) / 2 ^ 64 + |P / f.div| / 2 ^ 64) := by ring
    rw [e4]
    linarith
  · intro hab
    have ei : roundBits 64 P = P := by
      have := roundBits_int 64 (a * b) hab
      rw [hP]
      exact_mod_cast this
    rw [ei] at r2 h1
    have t1 := abs_sub_le (c : ℚ) (roundBits 64 (P / f.div)) (P / f.div)
    linarith

/-- The hypotheses of the product and quotient theorems: format `<int, 1000000>`, `1.5 · -2.25 = -3.375` exactly, `1 / 3 = 0.333333`; format `<int64, 10^9>`: `1.5 · 1.5 = 2.25`. -/
example : Fmt.Ok ⟨32, 1000000⟩ ∧ mul ⟨32, 1000000⟩ 1500000 (-2250000) = .ok (-3375000) ∧ divide ⟨32, 1000000⟩ 1000000 3000000 = .ok 333333 ∧
    Fmt.Ok ⟨64, 1000000000⟩ ∧ mul ⟨64, 1000000000⟩ 1500000000 1500000000 = .ok 2250000000 := by
  refine ⟨⟨by decide, by decide, by decide⟩, by decide +kernel, by decide +kernel, ⟨by decide, by decide, by decide⟩, by decide +kernel⟩

/-! ### Conversions -/

/-- **C55, conversion of formats, partial.** A non-negative number whose product with the new divider is below `2^64` is converted with an error below one unit of the new format, and exactly if the new format can represent
it. What is missing: negative numbers, see the counterexample. -/
theorem C55_convert_partial (src dst : Fmt) (hs : src.Ok) (hd : dst.Ok) (a : Int) (ha : 0 ≤ a) (hov : a * dst.div < 2 ^ 64) (h64 : a < 2 ^ 64) (hr : InRange dst.bits (a * dst.div / src.div)) :
    |value dst (convert src dst a) - value src a| < 1 / dst.div ∧ (∀ c : Int, value dst c = value src a → convert src dst a = c) := by
  have hds := div_pos' hs
  have hdd := div_pos' hd
  obtain ⟨n, rfl⟩ := Int.eq_ofNat_of_zero_le ha
  have e : convert src dst (n : Int) = (n : Int) * dst.div / src.div := by
    unfold convert
    have e1 : ((n : Int) % 2 ^ 64).toNat = n := by
      rw [Int.emod_eq_of_lt ha h64]
      rfl
    have e2 : n * dst.div % 2 ^ 64 = n * dst.div := Nat.mod_eq_of_lt (by exact_mod_cast hov)
    rw [e1, e2]
    have e3 : ((n * dst.div / src.div : Nat) : Int) = (n : Int) * dst.div / src.div := by push_cast; rfl
    rw [e3]
    exact wrap_id (bits_pos hd) hr
  rw [e]
  have hpos : (0 : Int) < src.div := by exact_mod_cast hs.2.1
  have m1 := Int.emod_nonneg ((n : Int) * dst.div) hpos.ne'
  have m2 := Int.emod_lt_of_pos ((n : Int) * dst.div) hpos
  have m3 := Int.emod_add_mul_ediv ((n : Int) * dst.div) src.div
  refine ⟨?_, ?_⟩
  · have q3 : (((n : Int) * dst.div % src.div : Int) : ℚ) + src.div * (((n : Int) * dst.div / src.div : Int) : ℚ) = n * dst.div := by exact_mod_cast m3
    have q1 : (0 : ℚ) ≤ (((n : Int) * dst.div % src.div : Int) : ℚ) := by exact_mod_cast m1
    have q2 : (((n : Int) * dst.div % src.div : Int) : ℚ) < src.div := by exact_mod_cast m2
    have e4 : value dst ((n : Int) * dst.div / src.div) - value src n = -((((n : Int) * dst.div % src.div : Int) : ℚ) / src.div) / dst.div := by
      unfold value
      field_simp
      push_cast at q3 ⊢
      linarith
    rw [e4, abs_div, abs_neg, abs_of_pos hdd, div_lt_div_iff_of_pos_right hdd, abs_of_nonneg (div_nonneg q1 hds.le), div_lt_one hds]
    exact q2
  · intro c hc
    unfold value at hc
    rw [div_eq_div_iff hdd.ne' hds.ne'] at hc
    have hc' : c * src.div = (n : Int) * dst.div := by exact_mod_cast hc
    rw [← hc', Int.mul_ediv_cancel _ hpos.ne']

/-- The hypotheses of `C55_convert_partial`: 2.5 from thousandths to tenths. -/
example : InRange (Fmt.mk 32 10).bits (2500 * (Fmt.mk 32 10).div / (Fmt.mk 32 1000).div) ∧ convert ⟨32, 1000⟩ ⟨32, 10⟩ 2500 = 25 := by decide +kernel

/-- **Negative numbers are converted without their sign.** -1 in thousandths becomes 127131030.9 in tenths, although -1 is representable. -/
theorem C55_convert_counterexample : Fmt.Ok ⟨32, 1000⟩ ∧ Fmt.Ok ⟨32, 10⟩ ∧ value ⟨32, 1000⟩ (-1000) = -1 ∧ value ⟨32, 10⟩ (-10) = -1 ∧ convert ⟨32, 1000⟩ ⟨32, 10⟩ (-1000) = 1271310309 := by
  refine ⟨⟨by decide, by decide, by decide⟩, ⟨by decide, by decide, by decide⟩, by norm_num [value], by norm_num [value], by decide +kernel⟩

/-- **C55, conversion from double.** If it is defined, the result is less than one unit plus the rounding of the product away from the given number. -/
theorem C55_from_double (f : Fmt) (hf : f.Ok) (x : ℚ) (c : Int) (h : fromDouble f x = .ok c) : |value f c - x| < (1 + |x * f.div| / 2 ^ 53) / f.div := by
  have hd := div_pos' hf
  obtain ⟨h1, -⟩ := truncTo_spec h
  have h2 := roundBits_close 53 (x * f.div)
  have e : value f c - x = (c - x * f.div) / f.div := by unfold value; field_simp
  rw [e, abs_div, abs_of_pos hd, div_lt_div_iff_of_pos_right hd]
  have t := abs_sub_le (c : ℚ) (roundBits 53 (x * f.div)) (x * f.div)
  linarith

/-- **C55, round trip, partial.** Converting to double and back moves a number with a numerator below `2^50` in magnitude by at most one unit. What is missing: that it is unchanged, see the counterexample. -/
theorem C55_round_trip_partial (f : Fmt) (hf : f.Ok) (a c : Int) (ha : |a| < 2 ^ 50) (h : fromDouble f (toDouble f a) = .ok c) : |c - a| ≤ 1 := by
  have hd := div_pos' hf
  obtain ⟨h1, -⟩ := truncTo_spec h
  have h2 := roundBits_close 53 (toDouble f a * f.div)
  have h3 : |toDouble f a - a / f.div| ≤ |(a : ℚ) / f.div| * (1 / 2 ^ 52) := by
    unfold toDouble
    have r1 := roundBits_close 64 ((a : ℚ) / f.div)
    have r2 := roundBits_close 53 (roundBits 64 ((a : ℚ) / f.div))
    set p := roundBits 64 ((a : ℚ) / f.div)
    set A := |(a : ℚ) / f.div|
    have hA : 0 ≤ A := abs_nonneg _
    have s1 : |p| ≤ A * (1 + 1 / 2 ^ 64) := by
      have := abs_sub_abs_le_abs_sub p ((a : ℚ) / f.div)
      have e3 : A * (1 + 1 / 2 ^ 64) = A + A / 2 ^ 64 := by ring
      rw [e3]
      linarith
    have s2 : |p| / 2 ^ 53 ≤ A * (1 + 1 / 2 ^ 64) / 2 ^ 53 := div_le_div_of_nonneg_right s1 (by positivity)
    have t := abs_sub_le (roundBits 53 p) p ((a : ℚ) / f.div)
    have e4 : A * (1 + 1 / 2 ^ 64) / 2 ^ 53 + A / 2 ^ 64 ≤ A * (1 / 2 ^ 52) := by
      have : A * (1 / 2 ^ 52) - (A * (1 + 1 / 2 ^ 64) / 2 ^ 53 + A / 2 ^ 64) = A * (1 / 2 ^ 52 - (1 + 1 / 2 ^ 64) / 2 ^ 53 - 1 / 2 ^ 64) := by ring
      have hk : (0 : ℚ) ≤ 1 / 2 ^ 52 - (1 + 1 / 2 ^ 64) / 2 ^ 53 - 1 / 2 ^ 64 := by norm_num
      have := mul_nonneg hA hk
      linarith
    linarith
  have h4 : |toDouble f a * f.div - a| ≤ |(a : ℚ)| * (1 / 2 ^ 52) := by
    have e : toDouble f a * f.div - a = (toDouble f a - a / f.div) * f.div := by field_simp
    rw [e, abs_mul, abs_of_pos hd]
    have := mul_le_mul_of_nonneg_right h3 hd.le
    refine this.trans (le_of_eq ?_)
    rw [abs_div, abs_of_pos hd]
    field_simp
  have haq : |(a : ℚ)| < 2 ^ 50 := by exact_mod_cast ha
  have h5 : |(a : ℚ)| * (1 / 2 ^ 52) < 1 / 4 := by
    have : |(a : ℚ)| * (1 / 2 ^ 52) < 2 ^ 50 * (1 / 2 ^ 52) := mul_lt_mul_of_pos_right haq (by positivity)
    refine this.trans_le ?_
    norm_num
  have h6 : |toDouble f a * f.div| / 2 ^ 53 < 1 / 4 := by
    have := abs_sub_abs_le_abs_sub (toDouble f a * f.div) (a : ℚ)
    rw [div_lt_iff₀ (by positivity)]
    have : |toDouble f a * f.div| < 2 ^ 50 + 1 / 4 := by linarith
    refine this.trans ?_
    norm_num
  have t1 := abs_sub_le (c : ℚ) (roundBits 53 (toDouble f a * f.div)) (toDouble f a * f.div)
  have t2 := abs_sub_le (c : ℚ) (toDouble f a * f.div) a
  have h7 : |(c : ℚ) - a| < 2 := by linarith
  have h8 : |c - a| < 2 := by exact_mod_cast h7
  omega

/-- **The round trip through double is not the identity**: 0.29 in hundredths becomes 0.28, because the product with the divider is rounded to a number below 29 and truncated. -/
theorem C55_round_trip_counterexample : Fmt.Ok ⟨32, 100⟩ ∧ fromDouble ⟨32, 100⟩ (toDouble ⟨32, 100⟩ 29) = .ok 28 := by
  refine ⟨⟨by decide, by decide, by decide⟩, by decide +kernel⟩

/-- Concrete numbers in a 32-bit format with three decimal places, and an overflow in it. -/
example : Fmt.Ok ⟨32, 1000⟩ ∧ InRange 32 (1500 + 2250) ∧ InRange 32 (2250 + (-7)) ∧ InRange 32 (1500 + 2250 + (-7)) ∧ ¬ InRange 32 (2147483647 + 1) ∧
    fromDouble ⟨32, 1000⟩ (3/2) = .ok 1500 ∧ fromDouble ⟨32, 1000⟩ (toDouble ⟨32, 1000⟩ 1500) = .ok 1500 ∧
    InRange 32 (1500 * (100 : Nat) / (1000 : Nat)) ∧ (1500 : Int) * (100 : Nat) < 2 ^ 64 ∧ mul ⟨64, 1000⟩ 1500 (-2000) = .ok (-3000) := by
  refine ⟨⟨by decide, by decide, by decide⟩, by decide, by decide, by decide, by decide, by decide +kernel, by decide +kernel, by decide, by decide, by decide +kernel⟩

end Verif.FixedPoint

import Verif.Sys.MD5
import Mathlib.Tactic.Linarith
import Mathlib.Tactic.NormNum
import Mathlib.Tactic.Ring
import Mathlib.Tactic.Positivity
/-
  The constants of MD5.c are those of RFC 1321: 4294967296 times abs(sin(i)), rounded down.
  Sines by the addition theorem on integers scaled by 10^40, starting from the power series at 1.
-/
namespace Vital.MD5.Sine
open Complex

theorem series (k : Nat) : ∑ m ∈ Finset.range (2 * k), I ^ m / (m.factorial : ℂ) =
    ((∑ j ∈ Finset.range k, (-1 : ℝ) ^ j / ((2 * j).factorial : ℝ) : ℝ) : ℂ) + ((∑ j ∈ Finset.range k, (-1 : ℝ) ^ j / ((2 * j + 1).factorial : ℝ) : ℝ) : ℂ) * I := by
  induction k with
  | zero => simp
  | succ k ih =>
    rw [show 2 * (k + 1) = 2 * k + 1 + 1 by ring, Finset.sum_range_succ, Finset.sum_range_succ, ih, Finset.sum_range_succ, Finset.sum_range_succ]
    push_cast
    rw [pow_succ, pow_mul, I_sq]
    ring

def S : Int := 10 ^ 40
def c1 : Int := 5403023058681397174009366074429766037323
def s1 : Int := 8414709848078965066525023216302989996225

theorem near_one : |(S : ℝ) * Real.cos 1 - c1| ≤ 1 ∧ |(S : ℝ) * Real.sin 1 - s1| ≤ 1 := by
  have hb := Complex.exp_bound (x := I) (by simp) (n := 2 * 19) (by norm_num)
  rw [series] at hb
  have he : Complex.exp I = ((Real.cos 1 : ℝ) : ℂ) + ((Real.sin 1 : ℝ) : ℂ) * I := by
    have := Complex.exp_mul_I (1 : ℂ)
    rw [one_mul] at this
    rw [this]
    push_cast; rfl
  rw [he] at hb
  generalize hC : (∑ j ∈ Finset.range 19, (-1 : ℝ) ^ j / ((2 * j).factorial : ℝ)) = C at hb
  generalize hS : (∑ j ∈ Finset.range 19, (-1 : ℝ) ^ j / ((2 * j + 1).factorial : ℝ)) = D at hb
  generalize Real.cos 1 = x at hb ⊢
  generalize Real.sin 1 = y at hb ⊢
  have hz : ((x : ℂ) + (y : ℂ) * I - ((C : ℂ) + (D : ℂ) * I)) = ⟨x - C, y - D⟩ := by
    apply Complex.ext <;> simp
  rw [hz] at hb
  have h1 := (Complex.abs_re_le_norm _).trans hb
  have h2 := (Complex.abs_im_le_norm _).trans hb
  simp only [norm_I, one_pow, one_mul] at h1 h2
  have hf : ((2 * 19 : ℕ).succ : ℝ) * (((2 * 19 : ℕ).factorial : ℝ) * ((2 * 19 : ℕ) : ℝ))⁻¹ ≤ 1 / 10 ^ 42 := by
    norm_num [Nat.factorial]
  have h1 := h1.trans hf
  have h2 := h2.trans hf
  have hC' : |(S : ℝ) * C - c1| ≤ 99 / 100 := by
    rw [← hC]
    norm_num [Finset.sum_range_succ, Nat.factorial, S, c1, abs_le]
  have hS' : |(S : ℝ) * D - s1| ≤ 99 / 100 := by
    rw [← hS]
    norm_num [Finset.sum_range_succ, Nat.factorial, S, s1, abs_le]
  have hSv : (S : ℝ) = 10 ^ 40 := by norm_num [S]
  rw [hSv] at hC' hS' ⊢
  rw [abs_le] at h1 h2 hC' hS'
  refine ⟨abs_le.2 ⟨?_, ?_⟩, abs_le.2 ⟨?_, ?_⟩⟩ <;> linarith [h1.1, h1.2, h2.1, h2.2, hC'.1, hC'.2, hS'.1, hS'.2]

/-- Scaled cosine, sine and error bound of `n`. -/
def tab : Nat → Int × Int × Int
  | 0 => (S, 0, 1)
  | n + 1 => let (c, s, e) := tab n
    ((c * c1 - s * s1) / S, (c * s1 + s * c1) / S, 2 * e + 5)

theorem prod_near {a x p q e : ℝ} (ha : |a - x| ≤ e) (hp : |p - q| ≤ 1) (hpS : |p| ≤ (S : ℝ)) (hxS : |x| ≤ 2 * (S : ℝ)) : |a * p - x * q| ≤ (S : ℝ) * e + 2 * (S : ℝ) := by
  have : a * p - x * q = (a - x) * p + x * (p - q) := by ring
  rw [this]
  refine (abs_add_le _ _).trans ?_
  rw [abs_mul, abs_mul]
  have h1 : |a - x| * |p| ≤ e * S := mul_le_mul ha hpS (abs_nonneg _) ((abs_nonneg _).trans ha)
  have h2 : |x| * |p - q| ≤ 2 * S * 1 := mul_le_mul hxS hp (abs_nonneg _) (by norm_num [S])
  linarith

theorem near_div {t e : ℝ} (z : Int) (h : |t * (S : ℝ) - z| ≤ e * S) : |t - ((z / S : Int) : ℝ)| ≤ e + 1 := by
  have hS : (0 : Int) < S := by norm_num [S]
  have hSr : (0 : ℝ) < (S : ℝ) := by exact_mod_cast hS
  have h1 : (z / S) * S ≤ z := Int.ediv_mul_le z (by omega)
  have h2 : z < (z / S + 1) * S := Int.lt_ediv_add_one_mul_self z hS
  have h1r : ((z / S : Int) : ℝ) * S ≤ z := by exact_mod_cast h1
  have h2r : (z : ℝ) < (((z / S : Int) : ℝ) + 1) * S := by exact_mod_cast h2
  rw [abs_le] at h ⊢
  constructor
  · by_contra hc
    push Not at hc
    have := mul_lt_mul_of_pos_right hc hSr
    nlinarith [h.1, h.2]
  · by_contra hc
    push Not at hc
    have := mul_lt_mul_of_pos_right hc hSr
    nlinarith [h.1, h.2]

theorem tab_near (n : Nat) (hn : n ≤ 64) :
    |(S : ℝ) * Real.cos n - (tab n).1| ≤ (tab n).2.2 ∧ |(S : ℝ) * Real.sin n - (tab n).2.1| ≤ (tab n).2.2 := by
  induction n with
  | zero => simp [tab]
  | succ n ih =>
    obtain ⟨hc, hs⟩ := ih (by omega)
    have he : (tab n).2.2 ≤ S := by
      have : ∀ k < 65, (tab k).2.2 ≤ S := by decide +kernel
      exact this n (by omega)
    have hSr : (0 : ℝ) < (S : ℝ) := by norm_num [S]
    have her : ((tab n).2.2 : ℝ) ≤ S := by exact_mod_cast he
    obtain ⟨n1, n2⟩ := near_one
    have b1 : |(S : ℝ) * Real.cos 1| ≤ S := by
      rw [abs_mul, abs_of_pos hSr]; nlinarith [Real.abs_cos_le_one 1]
    have b2 : |(S : ℝ) * Real.sin 1| ≤ S := by
      rw [abs_mul, abs_of_pos hSr]; nlinarith [Real.abs_sin_le_one 1]
    have bc : |((tab n).1 : ℝ)| ≤ 2 * S := by
      have h1 : |(S : ℝ) * Real.cos n| ≤ S := by rw [abs_mul, abs_of_pos hSr]; nlinarith [Real.abs_cos_le_one n]
      rw [abs_le] at *; constructor <;> linarith [hc.1, hc.2, h1.1, h1.2]
    have bs : |((tab n).2.1 : ℝ)| ≤ 2 * S := by
      have h1 : |(S : ℝ) * Real.sin n| ≤ S := by rw [abs_mul, abs_of_pos hSr]; nlinarith [Real.abs_sin_le_one n]
      rw [abs_le] at *; constructor <;> linarith [hs.1, hs.2, h1.1, h1.2]
    have p1 := prod_near hc n1 b1 bc
    have p2 := prod_near hs n2 b2 bs
    have p3 := prod_near hc n2 b2 bc
    have p4 := prod_near hs n1 b1 bs
    have et : ((tab (n + 1)).2.2 : ℝ) = (2 * (tab n).2.2 + 4) + 1 := by
      simp only [tab]; push_cast; ring
    rw [et]
    constructor
    · apply near_div
      push_cast
      rw [Real.cos_add]
      rw [abs_le] at *
      constructor <;> nlinarith [p1.1, p1.2, p2.1, p2.2]
    · apply near_div
      push_cast
      rw [Real.sin_add]
      rw [abs_le] at *
      constructor <;> nlinarith [p3.1, p3.2, p4.1, p4.2]

/-- The constants as written in MD5.c. -/
def const (i : Nat) : UInt32 := (sets.map Set.t).getD i 0

theorem enclosed : ∀ i < 64, (const i).toNat * S ≤ 4294967296 * (|(tab (i + 1)).2.1| - (tab (i + 1)).2.2) ∧
    4294967296 * (|(tab (i + 1)).2.1| + (tab (i + 1)).2.2) < ((const i).toNat + 1) * S := by decide +kernel

/-- The 64 constants of the code are those of the RFC. -/
theorem const_eq (i : Nat) (hi : i < 64) : const i = Rfc.T i := by
  unfold Rfc.T
  obtain ⟨h1, h2⟩ := enclosed i hi
  obtain ⟨-, hs⟩ := tab_near (i + 1) (by omega)
  have hSr : (0 : ℝ) < (S : ℝ) := by norm_num [S]
  have h1r : ((const i).toNat : ℝ) * S ≤ 4294967296 * (|((tab (i + 1)).2.1 : ℝ)| - (tab (i + 1)).2.2) := by exact_mod_cast h1
  have h2r : 4294967296 * (|((tab (i + 1)).2.1 : ℝ)| + (tab (i + 1)).2.2) < (((const i).toNat : ℝ) + 1) * S := by exact_mod_cast h2
  have hd : abs (abs ((S : ℝ) * Real.sin ((i + 1 : ℕ) : ℝ)) - abs ((tab (i + 1)).2.1 : ℝ)) ≤ (tab (i + 1)).2.2 := (abs_abs_sub_abs_le _ _).trans hs
  rw [abs_mul, abs_of_pos hSr] at hd
  push_cast at hd
  have hf : ⌊(4294967296 : ℝ) * |Real.sin ((i : ℝ) + 1)|⌋₊ = (const i).toNat := by
    rw [Nat.floor_eq_iff (by positivity)]
    rw [abs_le] at hd
    constructor
    · by_contra hc
      push Not at hc
      have := mul_lt_mul_of_pos_right hc hSr
      nlinarith [hd.1, hd.2]
    · by_contra hc
      push Not at hc
      have := mul_le_mul_of_nonneg_right hc hSr.le
      nlinarith [hd.1, hd.2]
  rw [hf]
  simp

end Vital.MD5.Sine

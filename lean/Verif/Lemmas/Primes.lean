import Mathlib.Data.Nat.Prime.Basic
import Verif.Model.HashTable
/-! Primality of the hash-table sizes, by trial division evaluated in the kernel. -/
namespace Duck
namespace Primes

/-- No odd number `2k+1` with `k ∈ [lo, lo + 2^d)`, at least 3, whose square is at most `n` divides `n`. -/
def check (n : Nat) : Nat → Nat → Bool
  | 0, lo => Nat.ble lo 0 || !Nat.beq (n % (2 * lo + 1)) 0
  | d + 1, lo => Nat.blt n ((2 * lo + 1) * (2 * lo + 1)) || (check n d lo && check n d (lo + 2 ^ d))

theorem check_sound (n : Nat) : ∀ d lo, check n d lo = true →
    ∀ m, lo ≤ m → m < lo + 2 ^ d → 1 ≤ m → (2 * m + 1) * (2 * m + 1) ≤ n → ¬ (2 * m + 1) ∣ n
  | 0, lo, h, m, h1, h2, h3, h4 => by
    have : m = lo := by simp at h2; omega
    subst this
    simp [check, Nat.ble_eq] at h
    intro hd
    rcases h with h | h
    · omega
    · rw [Nat.mod_eq_zero_of_dvd hd] at h; exact absurd h (by decide)
  | d + 1, lo, h, m, h1, h2, h3, h4 => by
    simp only [check, Bool.or_eq_true, Bool.and_eq_true, Nat.blt_eq] at h
    rcases h with h | h
    · have := Nat.mul_le_mul (show 2 * lo + 1 ≤ 2 * m + 1 by omega) (show 2 * lo + 1 ≤ 2 * m + 1 by omega)
      omega
    · by_cases hm : m < lo + 2 ^ d
      · exact check_sound n d lo h.1 m h1 hm h3 h4
      · refine check_sound n d _ h.2 m (by omega) ?_ h3 h4
        rw [Nat.pow_succ] at h2; omega

theorem prime_of_check {n d : Nat} (h2 : 2 ≤ n) (hodd : n % 2 = 1) (h : check n d 0 = true)
    (hd : n < 2 ^ d * 2 ^ d) : n.Prime := by
  rw [Nat.prime_def_le_sqrt]
  refine ⟨h2, fun m hm hs hdvd => ?_⟩
  have hmm : m * m ≤ n := Nat.le_sqrt.mp hs
  have hmo : m % 2 = 1 := by
    by_contra hc
    have : 2 ∣ n := dvd_trans (Nat.dvd_of_mod_eq_zero (by omega)) hdvd
    omega
  obtain ⟨k, rfl⟩ : ∃ k, m = 2 * k + 1 := ⟨m / 2, by omega⟩
  refine check_sound n d 0 h k (Nat.zero_le _) ?_ (by omega) hmm hdvd
  by_contra hc
  have : 2 ^ d ≤ 2 * k + 1 := by omega
  have := Nat.mul_le_mul this this
  omega

/-- The check of one table size. -/
def good (n : Nat) : Bool := Nat.beq n 25 ||
    (Nat.ble 2 n && Nat.beq (n % 2) 1 && check n 16 0 && Nat.blt n (2 ^ 16 * 2 ^ 16))

theorem good_prime {n : Nat} (h : good n = true) (h25 : n ≠ 25) : n.Prime := by
  simp [good, h25] at h
  obtain ⟨⟨⟨a, b⟩, c⟩, d⟩ := h
  exact prime_of_check a b c (by simpa using d)

theorem sizes_good1 : ((HTable.sizes.take 30).all fun s => good s.1) = true := by decide +kernel
theorem sizes_good2 : (((HTable.sizes.drop 30).take 5).all fun s => good s.1) = true := by decide +kernel
theorem sizes_good3 : (((HTable.sizes.drop 35).take 4).all fun s => good s.1) = true := by decide +kernel
theorem sizes_good4 : (((HTable.sizes.drop 39)).all fun s => good s.1) = true := by decide +kernel

theorem sizes_prime {n m : Nat} (h : (n, m) ∈ HTable.sizes) (h25 : n ≠ 25) : n.Prime := by
  have e : HTable.sizes = HTable.sizes.take 30 ++ ((HTable.sizes.drop 30).take 5 ++
      ((HTable.sizes.drop 35).take 4 ++ HTable.sizes.drop 39)) := rfl
  rw [e] at h
  simp only [List.mem_append] at h
  rcases h with h | h | h | h
  · exact good_prime (List.all_eq_true.mp sizes_good1 _ h) h25
  · exact good_prime (List.all_eq_true.mp sizes_good2 _ h) h25
  · exact good_prime (List.all_eq_true.mp sizes_good3 _ h) h25
  · exact good_prime (List.all_eq_true.mp sizes_good4 _ h) h25

end Primes
end Duck

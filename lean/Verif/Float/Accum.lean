import Verif.Float.Binary
import Verif.Float.Time

/-!
# Repeated addition in double precision

As long as the sum stays between two powers of two, adding `d` and rounding adds the same multiple of the unit in the last
place, so many additions can be done at once.
-/

namespace Nmpc

theorem rnd_of_near {q : ℚ} {s : ℕ} {z : ℤ} (h1 : 2 ^ 52 / 2 ^ s ≤ q) (h2 : q < 2 ^ 53 / 2 ^ s)
    (h3 : |q * 2 ^ s - z| < 1 / 2) : rnd 53 q = z / 2 ^ s := by
  have q0 : 0 < q := lt_of_lt_of_le (by positivity) h1
  have hlog : Int.log 2 |q| = 52 - s := by
    rw [abs_of_pos q0]
    refine le_antisymm ?_ ?_
    · have h : Int.log 2 q < 53 - s := by
        rw [← Int.lt_zpow_iff_log_lt (by norm_num) q0]
        rw [zpow_sub₀ (by norm_num)]
        exact_mod_cast h2
      omega
    · rw [← Int.zpow_le_iff_le_log (by norm_num) q0]
      rw [zpow_sub₀ (by norm_num)]
      exact_mod_cast h1
  have hu : ulp 53 q = 1 / 2 ^ s := by
    unfold ulp
    rw [hlog]
    rw [show (52 - s + 1 - (53 : ℕ) : ℤ) = -(s : ℤ) by push_cast; ring, zpow_neg]
    simp
  have hz : roundEven (q * 2 ^ s) = z := by
    have := roundEven_near (q * 2 ^ s)
    have h4 : |((roundEven (q * 2 ^ s) - z : ℤ) : ℚ)| < 1 := by
      push_cast
      rw [show (roundEven (q * 2 ^ s) : ℚ) - z = (roundEven (q * 2 ^ s) - q * 2 ^ s) + (q * 2 ^ s - z) by ring]
      exact lt_of_le_of_lt (abs_add_le _ _) (by linarith)
    rw [← Int.cast_abs] at h4
    have h5 : |roundEven (q * 2 ^ s) - z| < 1 := by exact_mod_cast h4
    have := Int.abs_lt_one_iff.1 h5
    omega
  unfold rnd
  rw [if_neg q0.ne', hu, show q / (1 / 2 ^ s) = q * 2 ^ s by field_simp, hz, mul_one_div]

/-- `j` additions within `[2^52 / 2^s, 2^53 / 2^s)`. -/
theorem acc_segment {d : ℚ} {t0 : Bin 53} (s m c J : ℕ) {k : ℕ} {v : ℚ} (h : acc t0 ⟨.fin d⟩ k = ⟨.fin v⟩) (hv : v = m / 2 ^ s)
    (hc : |d * 2 ^ s - c| < 1 / 2) (h1 : 2 ^ 52 ≤ m + d * 2 ^ s) (h2 : m + J * c + d * 2 ^ s < 2 ^ 53 + c) (j : ℕ)
    (hj : j ≤ J) :
    acc t0 ⟨.fin d⟩ (k + j) = ⟨.fin ((m + j * c) / 2 ^ s)⟩ := by
  subst hv
  induction j with
  | zero => simpa using h
  | succ j ih =>
    rw [← Nat.add_assoc, acc_succ, ih (by omega)]
    have h2s : (0 : ℚ) < 2 ^ s := by positivity
    change (⟨.fin (rnd 53 ((m + j * c) / 2 ^ s + d))⟩ : Bin 53) = _
    have hjJ : ((j : ℚ) + 1) ≤ J := by exact_mod_cast hj
    have c0 : (0 : ℚ) ≤ c := by positivity
    have j0 : (0 : ℚ) ≤ j := by positivity
    have jc : 0 ≤ (j : ℚ) * c := mul_nonneg j0 c0
    have Jc : ((j : ℚ) + 1) * c ≤ J * c := mul_le_mul_of_nonneg_right hjJ c0
    rw [rnd_of_near (s := s) (z := m + (j + 1 : ℕ) * c)]
    · push_cast; rfl
    · rw [div_add' _ _ _ h2s.ne']
      gcongr
      nlinarith
    · rw [div_add' _ _ _ h2s.ne']
      gcongr
      nlinarith
    · rw [add_mul, div_mul_cancel₀ _ h2s.ne']
      push_cast
      rw [show (m : ℚ) + j * c + d * 2 ^ s - (m + (j + 1) * c) = d * 2 ^ s - c by ring]
      exact hc

/-- Steps of 0.01: 1000 additions stay below 10, 2000 additions exceed 20. -/
theorem acc_hundredth : acc (0 : Bin 53) (lit (1 / 100)) 1000 = ⟨.fin (5629499534213025 / 562949953421312 : ℚ)⟩ ∧
    acc (0 : Bin 53) (lit (1 / 100)) 1001 = ⟨.fin (2817564516873619 / 281474976710656 : ℚ)⟩ ∧
    acc (0 : Bin 53) (lit (1 / 100)) 1999 = ⟨.fin (5626684784446105 / 281474976710656 : ℚ)⟩ ∧
    acc (0 : Bin 53) (lit (1 / 100)) 2000 = ⟨.fin (1407374883553303 / 70368744177664 : ℚ)⟩ := by
  have hd : (lit (1 / 100) : Bin 53) = ⟨.fin (5764607523034235 / 576460752303423488 : ℚ)⟩ := by decide +kernel
  rw [hd]
  have h12 : acc (0 : Bin 53) ⟨.fin (5764607523034235 / 576460752303423488 : ℚ)⟩ 12 = ⟨.fin (8646911284551351 / 72057594037927936 : ℚ)⟩ := by decide +kernel
  have h13 : acc (0 : Bin 53) ⟨.fin (5764607523034235 / 576460752303423488 : ℚ)⟩ 13 = ⟨.fin (4683743612465315 / 36028797018963968 : ℚ)⟩ := by rw [acc_succ, h12]; decide +kernel
  have h24 := acc_segment 55 4683743612465315 360287970189640 11 h13 (by norm_num) (by rw [abs_lt]; norm_num) (by norm_num) (by norm_num) 11 le_rfl
  rw [show (((4683743612465315 : ℕ) : ℚ) + ((11 : ℕ) : ℚ) * ((360287970189640 : ℕ) : ℚ)) / 2 ^ 55 = (8646911284551355 / 36028797018963968 : ℚ) by norm_num] at h24
  have h25 : acc (0 : Bin 53) ⟨.fin (5764607523034235 / 576460752303423488 : ℚ)⟩ 25 = ⟨.fin (4503599627370497 / 18014398509481984 : ℚ)⟩ := by rw [acc_succ, h24]; decide +kernel
  have h49 := acc_segment 54 4503599627370497 180143985094820 24 h25 (by norm_num) (by rw [abs_lt]; norm_num) (by norm_num) (by norm_num) 24 le_rfl
  rw [show (((4503599627370497 : ℕ) : ℚ) + ((24 : ℕ) : ℚ) * ((180143985094820 : ℕ) : ℚ)) / 2 ^ 54 = (8827055269646177 / 18014398509481984 : ℚ) by norm_num] at h49
  have h50 : acc (0 : Bin 53) ⟨.fin (5764607523034235 / 576460752303423488 : ℚ)⟩ 50 = ⟨.fin (2251799813685249 / 4503599627370496 : ℚ)⟩ := by rw [acc_succ, h49]; decide +kernel
  have h99 := acc_segment 53 4503599627370498 90071992547410 49 h50 (by norm_num) (by rw [abs_lt]; norm_num) (by norm_num) (by norm_num) 49 le_rfl
  rw [show (((4503599627370498 : ℕ) : ℚ) + ((49 : ℕ) : ℚ) * ((90071992547410 : ℕ) : ℚ)) / 2 ^ 53 = (2229281815548397 / 2251799813685248 : ℚ) by norm_num] at h99
  have h199 := acc_segment 52 4458563631096794 45035996273705 100 h99 (by norm_num) (by rw [abs_lt]; norm_num) (by norm_num) (by norm_num) 100 le_rfl
  rw [show (((4458563631096794 : ℕ) : ℚ) + ((100 : ℕ) : ℚ) * ((45035996273705 : ℕ) : ℚ)) / 2 ^ 52 = (4481081629233647 / 2251799813685248 : ℚ) by norm_num] at h199
  have h400 := acc_segment 51 4481081629233647 22517998136852 201 h199 (by norm_num) (by rw [abs_lt]; norm_num) (by norm_num) (by norm_num) 201 le_rfl
  rw [show (((4481081629233647 : ℕ) : ℚ) + ((201 : ℕ) : ℚ) * ((22517998136852 : ℕ) : ℚ)) / 2 ^ 51 = (9007199254740899 / 2251799813685248 : ℚ) by norm_num] at h400
  have h401 : acc (0 : Bin 53) ⟨.fin (5764607523034235 / 576460752303423488 : ℚ)⟩ 401 = ⟨.fin (1128714656609719 / 281474976710656 : ℚ)⟩ := by rw [acc_succ, h400]; decide +kernel
  have h800 := acc_segment 50 4514858626438876 11258999068426 399 h401 (by norm_num) (by rw [abs_lt]; norm_num) (by norm_num) (by norm_num) 399 le_rfl
  rw [show (((4514858626438876 : ℕ) : ℚ) + ((399 : ℕ) : ℚ) * ((11258999068426 : ℕ) : ℚ)) / 2 ^ 50 = (4503599627370425 / 562949953421312 : ℚ) by norm_num] at h800
  have h1000 := acc_segment 49 4503599627370425 5629499534213 200 h800 (by norm_num) (by rw [abs_lt]; norm_num) (by norm_num) (by norm_num) 200 le_rfl
  rw [show (((4503599627370425 : ℕ) : ℚ) + ((200 : ℕ) : ℚ) * ((5629499534213 : ℕ) : ℚ)) / 2 ^ 49 = (5629499534213025 / 562949953421312 : ℚ) by norm_num] at h1000
  have h1001 := acc_segment 49 5629499534213025 5629499534213 1 h1000 (by norm_num) (by rw [abs_lt]; norm_num) (by norm_num) (by norm_num) 1 le_rfl
  rw [show (((5629499534213025 : ℕ) : ℚ) + ((1 : ℕ) : ℚ) * ((5629499534213 : ℕ) : ℚ)) / 2 ^ 49 = (2817564516873619 / 281474976710656 : ℚ) by norm_num] at h1001
  have h1600 := acc_segment 49 5635129033747238 5629499534213 599 h1001 (by norm_num) (by rw [abs_lt]; norm_num) (by norm_num) (by norm_num) 599 le_rfl
  rw [show (((5635129033747238 : ℕ) : ℚ) + ((599 : ℕ) : ℚ) * ((5629499534213 : ℕ) : ℚ)) / 2 ^ 49 = (9007199254740825 / 562949953421312 : ℚ) by norm_num] at h1600
  have h1601 : acc (0 : Bin 53) ⟨.fin (5764607523034235 / 576460752303423488 : ℚ)⟩ 1601 = ⟨.fin (4506414377137519 / 281474976710656 : ℚ)⟩ := by rw [acc_succ, h1600]; decide +kernel
  have h1999 := acc_segment 48 4506414377137519 2814749767107 398 h1601 (by norm_num) (by rw [abs_lt]; norm_num) (by norm_num) (by norm_num) 398 le_rfl
  rw [show (((4506414377137519 : ℕ) : ℚ) + ((398 : ℕ) : ℚ) * ((2814749767107 : ℕ) : ℚ)) / 2 ^ 48 = (5626684784446105 / 281474976710656 : ℚ) by norm_num] at h1999
  have h2000 := acc_segment 48 5626684784446105 2814749767107 1 h1999 (by norm_num) (by rw [abs_lt]; norm_num) (by norm_num) (by norm_num) 1 le_rfl
  rw [show (((5626684784446105 : ℕ) : ℚ) + ((1 : ℕ) : ℚ) * ((2814749767107 : ℕ) : ℚ)) / 2 ^ 48 = (1407374883553303 / 70368744177664 : ℚ) by norm_num] at h2000
  exact ⟨h1000, h1001, h1999, h2000⟩

/-- Steps of 0.03. -/
theorem acc_three_hundredths : acc (0 : Bin 53) (lit (3 / 100)) 100 = ⟨.fin (6755399441055733 / 2251799813685248 : ℚ)⟩ ∧
    acc (0 : Bin 53) (lit (3 / 100)) 101 = ⟨.fin (3411476717733145 / 1125899906842624 : ℚ)⟩ := by
  have hd : (lit (3 / 100) : Bin 53) = ⟨.fin (1080863910568919 / 36028797018963968 : ℚ)⟩ := by decide +kernel
  rw [hd]
  have h12 : acc (0 : Bin 53) ⟨.fin (1080863910568919 / 36028797018963968 : ℚ)⟩ 12 = ⟨.fin (1621295865853379 / 4503599627370496 : ℚ)⟩ := by decide +kernel
  have h13 : acc (0 : Bin 53) ⟨.fin (1080863910568919 / 36028797018963968 : ℚ)⟩ 13 = ⟨.fin (878201927337247 / 2251799813685248 : ℚ)⟩ := by rw [acc_succ, h12]; decide +kernel
  have h14 : acc (0 : Bin 53) ⟨.fin (1080863910568919 / 36028797018963968 : ℚ)⟩ 14 = ⟨.fin (1891511843495609 / 4503599627370496 : ℚ)⟩ := by rw [acc_succ, h13]; decide +kernel
  have h15 : acc (0 : Bin 53) ⟨.fin (1080863910568919 / 36028797018963968 : ℚ)⟩ 15 = ⟨.fin (506654958079181 / 1125899906842624 : ℚ)⟩ := by rw [acc_succ, h14]; decide +kernel
  have h16 : acc (0 : Bin 53) ⟨.fin (1080863910568919 / 36028797018963968 : ℚ)⟩ 16 = ⟨.fin (2161727821137839 / 4503599627370496 : ℚ)⟩ := by rw [acc_succ, h15]; decide +kernel
  have h33 := acc_segment 53 4323455642275678 270215977642230 17 h16 (by norm_num) (by rw [abs_lt]; norm_num) (by norm_num) (by norm_num) 17 le_rfl
  rw [show (((4323455642275678 : ℕ) : ℚ) + ((17 : ℕ) : ℚ) * ((270215977642230 : ℕ) : ℚ)) / 2 ^ 53 = (2229281815548397 / 2251799813685248 : ℚ) by norm_num] at h33
  have h66 := acc_segment 52 4458563631096794 135107988821115 33 h33 (by norm_num) (by rw [abs_lt]; norm_num) (by norm_num) (by norm_num) 33 le_rfl
  rw [show (((4458563631096794 : ℕ) : ℚ) + ((33 : ℕ) : ℚ) * ((135107988821115 : ℕ) : ℚ)) / 2 ^ 52 = (8917127262193589 / 4503599627370496 : ℚ) by norm_num] at h66
  have h67 : acc (0 : Bin 53) ⟨.fin (1080863910568919 / 36028797018963968 : ℚ)⟩ 67 = ⟨.fin (565764703188419 / 281474976710656 : ℚ)⟩ := by rw [acc_succ, h66]; decide +kernel
  have h100 := acc_segment 51 4526117625507352 67553994410557 33 h67 (by norm_num) (by rw [abs_lt]; norm_num) (by norm_num) (by norm_num) 33 le_rfl
  rw [show (((4526117625507352 : ℕ) : ℚ) + ((33 : ℕ) : ℚ) * ((67553994410557 : ℕ) : ℚ)) / 2 ^ 51 = (6755399441055733 / 2251799813685248 : ℚ) by norm_num] at h100
  have h101 := acc_segment 51 6755399441055733 67553994410557 1 h100 (by norm_num) (by rw [abs_lt]; norm_num) (by norm_num) (by norm_num) 1 le_rfl
  rw [show (((6755399441055733 : ℕ) : ℚ) + ((1 : ℕ) : ℚ) * ((67553994410557 : ℕ) : ℚ)) / 2 ^ 51 = (3411476717733145 / 1125899906842624 : ℚ) by norm_num] at h101
  exact ⟨h100, h101⟩

/-- Steps of 0.002. -/
theorem acc_two_thousandths : acc (0 : Bin 53) (lit (2 / 1000)) 4999 = ⟨.fin (2814186817153141 / 281474976710656 : ℚ)⟩ ∧
    acc (0 : Bin 53) (lit (2 / 1000)) 5000 = ⟨.fin (5629499534213125 / 562949953421312 : ℚ)⟩ := by
  have hd : (lit (2 / 1000) : Bin 53) = ⟨.fin (1152921504606847 / 576460752303423488 : ℚ)⟩ := by decide +kernel
  rw [hd]
  have h12 : acc (0 : Bin 53) ⟨.fin (1152921504606847 / 576460752303423488 : ℚ)⟩ 12 = ⟨.fin (1729382256910271 / 72057594037927936 : ℚ)⟩ := by decide +kernel
  have h13 : acc (0 : Bin 53) ⟨.fin (1152921504606847 / 576460752303423488 : ℚ)⟩ 13 = ⟨.fin (1873497444986127 / 72057594037927936 : ℚ)⟩ := by rw [acc_succ, h12]; decide +kernel
  have h14 : acc (0 : Bin 53) ⟨.fin (1152921504606847 / 576460752303423488 : ℚ)⟩ 14 = ⟨.fin (2017612633061983 / 72057594037927936 : ℚ)⟩ := by rw [acc_succ, h13]; decide +kernel
  have h15 : acc (0 : Bin 53) ⟨.fin (1152921504606847 / 576460752303423488 : ℚ)⟩ 15 = ⟨.fin (2161727821137839 / 72057594037927936 : ℚ)⟩ := by rw [acc_succ, h14]; decide +kernel
  have h31 := acc_segment 57 4323455642275678 288230376151712 16 h15 (by norm_num) (by rw [abs_lt]; norm_num) (by norm_num) (by norm_num) 16 le_rfl
  rw [show (((4323455642275678 : ℕ) : ℚ) + ((16 : ℕ) : ℚ) * ((288230376151712 : ℕ) : ℚ)) / 2 ^ 57 = (4467570830351535 / 72057594037927936 : ℚ) by norm_num] at h31
  have h62 := acc_segment 56 4467570830351535 144115188075856 31 h31 (by norm_num) (by rw [abs_lt]; norm_num) (by norm_num) (by norm_num) 31 le_rfl
  rw [show (((4467570830351535 : ℕ) : ℚ) + ((31 : ℕ) : ℚ) * ((144115188075856 : ℕ) : ℚ)) / 2 ^ 56 = (8935141660703071 / 72057594037927936 : ℚ) by norm_num] at h62
  have h63 : acc (0 : Bin 53) ⟨.fin (1152921504606847 / 576460752303423488 : ℚ)⟩ 63 = ⟨.fin (4539628424389463 / 36028797018963968 : ℚ)⟩ := by rw [acc_succ, h62]; decide +kernel
  have h124 := acc_segment 55 4539628424389463 72057594037928 61 h63 (by norm_num) (by rw [abs_lt]; norm_num) (by norm_num) (by norm_num) 61 le_rfl
  rw [show (((4539628424389463 : ℕ) : ℚ) + ((61 : ℕ) : ℚ) * ((72057594037928 : ℕ) : ℚ)) / 2 ^ 55 = (8935141660703071 / 36028797018963968 : ℚ) by norm_num] at h124
  have h125 : acc (0 : Bin 53) ⟨.fin (1152921504606847 / 576460752303423488 : ℚ)⟩ 125 = ⟨.fin (4503599627370499 / 18014398509481984 : ℚ)⟩ := by rw [acc_succ, h124]; decide +kernel
  have h249 := acc_segment 54 4503599627370499 36028797018964 124 h125 (by norm_num) (by rw [abs_lt]; norm_num) (by norm_num) (by norm_num) 124 le_rfl
  rw [show (((4503599627370499 : ℕ) : ℚ) + ((124 : ℕ) : ℚ) * ((36028797018964 : ℕ) : ℚ)) / 2 ^ 54 = (8971170457722035 / 18014398509481984 : ℚ) by norm_num] at h249
  have h250 : acc (0 : Bin 53) ⟨.fin (1152921504606847 / 576460752303423488 : ℚ)⟩ 250 = ⟨.fin (4503599627370499 / 9007199254740992 : ℚ)⟩ := by rw [acc_succ, h249]; decide +kernel
  have h499 := acc_segment 53 4503599627370499 18014398509482 249 h250 (by norm_num) (by rw [abs_lt]; norm_num) (by norm_num) (by norm_num) 249 le_rfl
  rw [show (((4503599627370499 : ℕ) : ℚ) + ((249 : ℕ) : ℚ) * ((18014398509482 : ℕ) : ℚ)) / 2 ^ 53 = (8989184856231517 / 9007199254740992 : ℚ) by norm_num] at h499
  have h500 : acc (0 : Bin 53) ⟨.fin (1152921504606847 / 576460752303423488 : ℚ)⟩ 500 = ⟨.fin (4503599627370499 / 4503599627370496 : ℚ)⟩ := by rw [acc_succ, h499]; decide +kernel
  have h999 := acc_segment 52 4503599627370499 9007199254741 499 h500 (by norm_num) (by rw [abs_lt]; norm_num) (by norm_num) (by norm_num) 499 le_rfl
  rw [show (((4503599627370499 : ℕ) : ℚ) + ((499 : ℕ) : ℚ) * ((9007199254741 : ℕ) : ℚ)) / 2 ^ 52 = (4499096027743129 / 2251799813685248 : ℚ) by norm_num] at h999
  have h2000 := acc_segment 51 4499096027743129 4503599627370 1001 h999 (by norm_num) (by rw [abs_lt]; norm_num) (by norm_num) (by norm_num) 1001 le_rfl
  rw [show (((4499096027743129 : ℕ) : ℚ) + ((1001 : ℕ) : ℚ) * ((4503599627370 : ℕ) : ℚ)) / 2 ^ 51 = (9007199254740499 / 2251799813685248 : ℚ) by norm_num] at h2000
  have h2001 : acc (0 : Bin 53) ⟨.fin (1152921504606847 / 576460752303423488 : ℚ)⟩ 2001 = ⟨.fin (4505851427183935 / 1125899906842624 : ℚ)⟩ := by rw [acc_succ, h2000]; decide +kernel
  have h4000 := acc_segment 50 4505851427183935 2251799813685 1999 h2001 (by norm_num) (by rw [abs_lt]; norm_num) (by norm_num) (by norm_num) 1999 le_rfl
  rw [show (((4505851427183935 : ℕ) : ℚ) + ((1999 : ℕ) : ℚ) * ((2251799813685 : ℕ) : ℚ)) / 2 ^ 50 = (4503599627370125 / 562949953421312 : ℚ) by norm_num] at h4000
  have h4999 := acc_segment 49 4503599627370125 1125899906843 999 h4000 (by norm_num) (by rw [abs_lt]; norm_num) (by norm_num) (by norm_num) 999 le_rfl
  rw [show (((4503599627370125 : ℕ) : ℚ) + ((999 : ℕ) : ℚ) * ((1125899906843 : ℕ) : ℚ)) / 2 ^ 49 = (2814186817153141 / 281474976710656 : ℚ) by norm_num] at h4999
  have h5000 := acc_segment 49 5628373634306282 1125899906843 1 h4999 (by norm_num) (by rw [abs_lt]; norm_num) (by norm_num) (by norm_num) 1 le_rfl
  rw [show (((5628373634306282 : ℕ) : ℚ) + ((1 : ℕ) : ℚ) * ((1125899906843 : ℕ) : ℚ)) / 2 ^ 49 = (5629499534213125 / 562949953421312 : ℚ) by norm_num] at h5000
  exact ⟨h4999, h5000⟩

/-- Steps of 0.005. -/
theorem acc_five_thousandths : acc (0 : Bin 53) (lit (5 / 1000)) 1999 = ⟨.fin (5626684784446105 / 562949953421312 : ℚ)⟩ ∧
    acc (0 : Bin 53) (lit (5 / 1000)) 2000 = ⟨.fin (1407374883553303 / 140737488355328 : ℚ)⟩ := by
  have hd : (lit (5 / 1000) : Bin 53) = ⟨.fin (5764607523034235 / 1152921504606846976 : ℚ)⟩ := by decide +kernel
  rw [hd]
  have h12 : acc (0 : Bin 53) ⟨.fin (5764607523034235 / 1152921504606846976 : ℚ)⟩ 12 = ⟨.fin (8646911284551351 / 144115188075855872 : ℚ)⟩ := by decide +kernel
  have h13 : acc (0 : Bin 53) ⟨.fin (5764607523034235 / 1152921504606846976 : ℚ)⟩ 13 = ⟨.fin (4683743612465315 / 72057594037927936 : ℚ)⟩ := by rw [acc_succ, h12]; decide +kernel
  have h24 := acc_segment 56 4683743612465315 360287970189640 11 h13 (by norm_num) (by rw [abs_lt]; norm_num) (by norm_num) (by norm_num) 11 le_rfl
  rw [show (((4683743612465315 : ℕ) : ℚ) + ((11 : ℕ) : ℚ) * ((360287970189640 : ℕ) : ℚ)) / 2 ^ 56 = (8646911284551355 / 72057594037927936 : ℚ) by norm_num] at h24
  have h25 : acc (0 : Bin 53) ⟨.fin (5764607523034235 / 1152921504606846976 : ℚ)⟩ 25 = ⟨.fin (4503599627370497 / 36028797018963968 : ℚ)⟩ := by rw [acc_succ, h24]; decide +kernel
  have h49 := acc_segment 55 4503599627370497 180143985094820 24 h25 (by norm_num) (by rw [abs_lt]; norm_num) (by norm_num) (by norm_num) 24 le_rfl
  rw [show (((4503599627370497 : ℕ) : ℚ) + ((24 : ℕ) : ℚ) * ((180143985094820 : ℕ) : ℚ)) / 2 ^ 55 = (8827055269646177 / 36028797018963968 : ℚ) by norm_num] at h49
  have h50 : acc (0 : Bin 53) ⟨.fin (5764607523034235 / 1152921504606846976 : ℚ)⟩ 50 = ⟨.fin (2251799813685249 / 9007199254740992 : ℚ)⟩ := by rw [acc_succ, h49]; decide +kernel
  have h99 := acc_segment 54 4503599627370498 90071992547410 49 h50 (by norm_num) (by rw [abs_lt]; norm_num) (by norm_num) (by norm_num) 49 le_rfl
  rw [show (((4503599627370498 : ℕ) : ℚ) + ((49 : ℕ) : ℚ) * ((90071992547410 : ℕ) : ℚ)) / 2 ^ 54 = (2229281815548397 / 4503599627370496 : ℚ) by norm_num] at h99
  have h199 := acc_segment 53 4458563631096794 45035996273705 100 h99 (by norm_num) (by rw [abs_lt]; norm_num) (by norm_num) (by norm_num) 100 le_rfl
  rw [show (((4458563631096794 : ℕ) : ℚ) + ((100 : ℕ) : ℚ) * ((45035996273705 : ℕ) : ℚ)) / 2 ^ 53 = (4481081629233647 / 4503599627370496 : ℚ) by norm_num] at h199
  have h400 := acc_segment 52 4481081629233647 22517998136852 201 h199 (by norm_num) (by rw [abs_lt]; norm_num) (by norm_num) (by norm_num) 201 le_rfl
  rw [show (((4481081629233647 : ℕ) : ℚ) + ((201 : ℕ) : ℚ) * ((22517998136852 : ℕ) : ℚ)) / 2 ^ 52 = (9007199254740899 / 4503599627370496 : ℚ) by norm_num] at h400
  have h401 : acc (0 : Bin 53) ⟨.fin (5764607523034235 / 1152921504606846976 : ℚ)⟩ 401 = ⟨.fin (1128714656609719 / 562949953421312 : ℚ)⟩ := by rw [acc_succ, h400]; decide +kernel
  have h800 := acc_segment 51 4514858626438876 11258999068426 399 h401 (by norm_num) (by rw [abs_lt]; norm_num) (by norm_num) (by norm_num) 399 le_rfl
  rw [show (((4514858626438876 : ℕ) : ℚ) + ((399 : ℕ) : ℚ) * ((11258999068426 : ℕ) : ℚ)) / 2 ^ 51 = (4503599627370425 / 1125899906842624 : ℚ) by norm_num] at h800
  have h1600 := acc_segment 50 4503599627370425 5629499534213 800 h800 (by norm_num) (by rw [abs_lt]; norm_num) (by norm_num) (by norm_num) 800 le_rfl
  rw [show (((4503599627370425 : ℕ) : ℚ) + ((800 : ℕ) : ℚ) * ((5629499534213 : ℕ) : ℚ)) / 2 ^ 50 = (9007199254740825 / 1125899906842624 : ℚ) by norm_num] at h1600
  have h1601 : acc (0 : Bin 53) ⟨.fin (5764607523034235 / 1152921504606846976 : ℚ)⟩ 1601 = ⟨.fin (4506414377137519 / 562949953421312 : ℚ)⟩ := by rw [acc_succ, h1600]; decide +kernel
  have h1999 := acc_segment 49 4506414377137519 2814749767107 398 h1601 (by norm_num) (by rw [abs_lt]; norm_num) (by norm_num) (by norm_num) 398 le_rfl
  rw [show (((4506414377137519 : ℕ) : ℚ) + ((398 : ℕ) : ℚ) * ((2814749767107 : ℕ) : ℚ)) / 2 ^ 49 = (5626684784446105 / 562949953421312 : ℚ) by norm_num] at h1999
  have h2000 := acc_segment 49 5626684784446105 2814749767107 1 h1999 (by norm_num) (by rw [abs_lt]; norm_num) (by norm_num) (by norm_num) 1 le_rfl
  rw [show (((5626684784446105 : ℕ) : ℚ) + ((1 : ℕ) : ℚ) * ((2814749767107 : ℕ) : ℚ)) / 2 ^ 49 = (1407374883553303 / 140737488355328 : ℚ) by norm_num] at h2000
  exact ⟨h1999, h2000⟩

/-- Steps of 0.001. -/
theorem acc_thousandth : acc (0 : Bin 53) (lit (1 / 1000)) 10000 = ⟨.fin (2814749767106531 / 281474976710656 : ℚ)⟩ ∧
    acc (0 : Bin 53) (lit (1 / 1000)) 10001 = ⟨.fin (5630062484166483 / 562949953421312 : ℚ)⟩ ∧
    acc (0 : Bin 53) (lit (1 / 1000)) 19999 = ⟨.fin (1407304514809205 / 70368744177664 : ℚ)⟩ ∧
    acc (0 : Bin 53) (lit (1 / 1000)) 20000 = ⟨.fin (5629499534213531 / 281474976710656 : ℚ)⟩ := by
  have hd : (lit (1 / 1000) : Bin 53) = ⟨.fin (1152921504606847 / 1152921504606846976 : ℚ)⟩ := by decide +kernel
  rw [hd]
  have h12 : acc (0 : Bin 53) ⟨.fin (1152921504606847 / 1152921504606846976 : ℚ)⟩ 12 = ⟨.fin (1729382256910271 / 144115188075855872 : ℚ)⟩ := by decide +kernel
  have h13 : acc (0 : Bin 53) ⟨.fin (1152921504606847 / 1152921504606846976 : ℚ)⟩ 13 = ⟨.fin (1873497444986127 / 144115188075855872 : ℚ)⟩ := by rw [acc_succ, h12]; decide +kernel
  have h14 : acc (0 : Bin 53) ⟨.fin (1152921504606847 / 1152921504606846976 : ℚ)⟩ 14 = ⟨.fin (2017612633061983 / 144115188075855872 : ℚ)⟩ := by rw [acc_succ, h13]; decide +kernel
  have h15 : acc (0 : Bin 53) ⟨.fin (1152921504606847 / 1152921504606846976 : ℚ)⟩ 15 = ⟨.fin (2161727821137839 / 144115188075855872 : ℚ)⟩ := by rw [acc_succ, h14]; decide +kernel
  have h31 := acc_segment 58 4323455642275678 288230376151712 16 h15 (by norm_num) (by rw [abs_lt]; norm_num) (by norm_num) (by norm_num) 16 le_rfl
  rw [show (((4323455642275678 : ℕ) : ℚ) + ((16 : ℕ) : ℚ) * ((288230376151712 : ℕ) : ℚ)) / 2 ^ 58 = (4467570830351535 / 144115188075855872 : ℚ) by norm_num] at h31
  have h62 := acc_segment 57 4467570830351535 144115188075856 31 h31 (by norm_num) (by rw [abs_lt]; norm_num) (by norm_num) (by norm_num) 31 le_rfl
  rw [show (((4467570830351535 : ℕ) : ℚ) + ((31 : ℕ) : ℚ) * ((144115188075856 : ℕ) : ℚ)) / 2 ^ 57 = (8935141660703071 / 144115188075855872 : ℚ) by norm_num] at h62
  have h63 : acc (0 : Bin 53) ⟨.fin (1152921504606847 / 1152921504606846976 : ℚ)⟩ 63 = ⟨.fin (4539628424389463 / 72057594037927936 : ℚ)⟩ := by rw [acc_succ, h62]; decide +kernel
  have h124 := acc_segment 56 4539628424389463 72057594037928 61 h63 (by norm_num) (by rw [abs_lt]; norm_num) (by norm_num) (by norm_num) 61 le_rfl
  rw [show (((4539628424389463 : ℕ) : ℚ) + ((61 : ℕ) : ℚ) * ((72057594037928 : ℕ) : ℚ)) / 2 ^ 56 = (8935141660703071 / 72057594037927936 : ℚ) by norm_num] at h124
  have h125 : acc (0 : Bin 53) ⟨.fin (1152921504606847 / 1152921504606846976 : ℚ)⟩ 125 = ⟨.fin (4503599627370499 / 36028797018963968 : ℚ)⟩ := by rw [acc_succ, h124]; decide +kernel
  have h249 := acc_segment 55 4503599627370499 36028797018964 124 h125 (by norm_num) (by rw [abs_lt]; norm_num) (by norm_num) (by norm_num) 124 le_rfl
  rw [show (((4503599627370499 : ℕ) : ℚ) + ((124 : ℕ) : ℚ) * ((36028797018964 : ℕ) : ℚ)) / 2 ^ 55 = (8971170457722035 / 36028797018963968 : ℚ) by norm_num] at h249
  have h250 : acc (0 : Bin 53) ⟨.fin (1152921504606847 / 1152921504606846976 : ℚ)⟩ 250 = ⟨.fin (4503599627370499 / 18014398509481984 : ℚ)⟩ := by rw [acc_succ, h249]; decide +kernel
  have h499 := acc_segment 54 4503599627370499 18014398509482 249 h250 (by norm_num) (by rw [abs_lt]; norm_num) (by norm_num) (by norm_num) 249 le_rfl
  rw [show (((4503599627370499 : ℕ) : ℚ) + ((249 : ℕ) : ℚ) * ((18014398509482 : ℕ) : ℚ)) / 2 ^ 54 = (8989184856231517 / 18014398509481984 : ℚ) by norm_num] at h499
  have h500 : acc (0 : Bin 53) ⟨.fin (1152921504606847 / 1152921504606846976 : ℚ)⟩ 500 = ⟨.fin (4503599627370499 / 9007199254740992 : ℚ)⟩ := by rw [acc_succ, h499]; decide +kernel
  have h999 := acc_segment 53 4503599627370499 9007199254741 499 h500 (by norm_num) (by rw [abs_lt]; norm_num) (by norm_num) (by norm_num) 499 le_rfl
  rw [show (((4503599627370499 : ℕ) : ℚ) + ((499 : ℕ) : ℚ) * ((9007199254741 : ℕ) : ℚ)) / 2 ^ 53 = (4499096027743129 / 4503599627370496 : ℚ) by norm_num] at h999
  have h2000 := acc_segment 52 4499096027743129 4503599627370 1001 h999 (by norm_num) (by rw [abs_lt]; norm_num) (by norm_num) (by norm_num) 1001 le_rfl
  rw [show (((4499096027743129 : ℕ) : ℚ) + ((1001 : ℕ) : ℚ) * ((4503599627370 : ℕ) : ℚ)) / 2 ^ 52 = (9007199254740499 / 4503599627370496 : ℚ) by norm_num] at h2000
  have h2001 : acc (0 : Bin 53) ⟨.fin (1152921504606847 / 1152921504606846976 : ℚ)⟩ 2001 = ⟨.fin (4505851427183935 / 2251799813685248 : ℚ)⟩ := by rw [acc_succ, h2000]; decide +kernel
  have h4000 := acc_segment 51 4505851427183935 2251799813685 1999 h2001 (by norm_num) (by rw [abs_lt]; norm_num) (by norm_num) (by norm_num) 1999 le_rfl
  rw [show (((4505851427183935 : ℕ) : ℚ) + ((1999 : ℕ) : ℚ) * ((2251799813685 : ℕ) : ℚ)) / 2 ^ 51 = (4503599627370125 / 1125899906842624 : ℚ) by norm_num] at h4000
  have h7999 := acc_segment 50 4503599627370125 1125899906843 3999 h4000 (by norm_num) (by rw [abs_lt]; norm_num) (by norm_num) (by norm_num) 3999 le_rfl
  rw [show (((4503599627370125 : ℕ) : ℚ) + ((3999 : ℕ) : ℚ) * ((1125899906843 : ℕ) : ℚ)) / 2 ^ 50 = (4503036677417641 / 562949953421312 : ℚ) by norm_num] at h7999
  have h10000 := acc_segment 49 4503036677417641 562949953421 2001 h7999 (by norm_num) (by rw [abs_lt]; norm_num) (by norm_num) (by norm_num) 2001 le_rfl
  rw [show (((4503036677417641 : ℕ) : ℚ) + ((2001 : ℕ) : ℚ) * ((562949953421 : ℕ) : ℚ)) / 2 ^ 49 = (2814749767106531 / 281474976710656 : ℚ) by norm_num] at h10000
  have h10001 := acc_segment 49 5629499534213062 562949953421 1 h10000 (by norm_num) (by rw [abs_lt]; norm_num) (by norm_num) (by norm_num) 1 le_rfl
  rw [show (((5629499534213062 : ℕ) : ℚ) + ((1 : ℕ) : ℚ) * ((562949953421 : ℕ) : ℚ)) / 2 ^ 49 = (5630062484166483 / 562949953421312 : ℚ) by norm_num] at h10001
  have h16000 := acc_segment 49 5630062484166483 562949953421 5999 h10001 (by norm_num) (by rw [abs_lt]; norm_num) (by norm_num) (by norm_num) 5999 le_rfl
  rw [show (((5630062484166483 : ℕ) : ℚ) + ((5999 : ℕ) : ℚ) * ((562949953421 : ℕ) : ℚ)) / 2 ^ 49 = (4503599627369531 / 281474976710656 : ℚ) by norm_num] at h16000
  have h19999 := acc_segment 48 4503599627369531 281474976711 3999 h16000 (by norm_num) (by rw [abs_lt]; norm_num) (by norm_num) (by norm_num) 3999 le_rfl
  rw [show (((4503599627369531 : ℕ) : ℚ) + ((3999 : ℕ) : ℚ) * ((281474976711 : ℕ) : ℚ)) / 2 ^ 48 = (1407304514809205 / 70368744177664 : ℚ) by norm_num] at h19999
  have h20000 := acc_segment 48 5629218059236820 281474976711 1 h19999 (by norm_num) (by rw [abs_lt]; norm_num) (by norm_num) (by norm_num) 1 le_rfl
  rw [show (((5629218059236820 : ℕ) : ℚ) + ((1 : ℕ) : ℚ) * ((281474976711 : ℕ) : ℚ)) / 2 ^ 48 = (5629499534213531 / 281474976710656 : ℚ) by norm_num] at h20000
  exact ⟨h10000, h10001, h19999, h20000⟩

end Nmpc

import Verif.Py.Basic
/- Facts about the hexadecimal helpers of `Py/Basic`. -/
namespace Verif

theorem hexVal_hexUpper {d : Nat} (h : d < 16) : hexVal? (hexUpper d) = some d := by
  unfold hexUpper hexVal?
  split
  · next h1 => rw [if_pos (by omega)]; congr 1; omega
  · next h1 => rw [if_neg (by omega), if_pos (by omega)]; congr 1; omega

theorem hexVal_hexLower {d : Nat} (h : d < 16) : hexVal? (hexLower d) = some d := by
  unfold hexLower hexVal?
  split
  · next h1 => rw [if_pos (by omega)]; congr 1; omega
  · next h1 => rw [if_neg (by omega), if_neg (by omega), if_pos (by omega)]; congr 1; omega

theorem isHex_hexUpper {d : Nat} (h : d < 16) : isHex (hexUpper d) = true := by
  simp [isHex, hexVal_hexUpper h]

theorem hexVal_lt {c v : Nat} (h : hexVal? c = some v) : v < 16 := by
  unfold hexVal? at h
  split at h
  · cases h; omega
  · split at h
    · cases h; omega
    · split at h
      · cases h; omega
      · cases h

theorem hexUpper_range {d : Nat} (h : d < 16) : (48 ≤ hexUpper d ∧ hexUpper d ≤ 57) ∨ (65 ≤ hexUpper d ∧ hexUpper d ≤ 70) := by
  unfold hexUpper; split <;> omega

theorem parseHex_fmt02X {n : Nat} (h : n < 256) : parseHex (fmt02X n) = n := by
  simp only [fmt02X, parseHex, List.foldl_cons, List.foldl_nil, hexVal_hexUpper (show n / 16 % 16 < 16 by omega),
    hexVal_hexUpper (show n % 16 < 16 by omega), Option.getD_some]
  omega

theorem parseHex_fmt04X {n : Nat} (h : n < 65536) : parseHex (fmt04X n) = n := by
  simp only [fmt04X, parseHex, List.foldl_cons, List.foldl_nil, hexVal_hexUpper (Nat.mod_lt _ (show 16 > 0 by omega)), Option.getD_some]
  omega

theorem parseHex_fmt08X {n : Nat} (h : n < 4294967296) : parseHex (fmt08X n) = n := by
  simp only [fmt08X, parseHex, List.foldl_cons, List.foldl_nil, hexVal_hexUpper (Nat.mod_lt _ (show 16 > 0 by omega)), Option.getD_some]
  omega

theorem all_isHex_fmt04X (n : Nat) : (fmt04X n).all isHex = true := by
  simp [fmt04X, isHex_hexUpper (Nat.mod_lt _ (show 16 > 0 by omega))]

theorem all_isHex_fmt08X (n : Nat) : (fmt08X n).all isHex = true := by
  simp [fmt08X, isHex_hexUpper (Nat.mod_lt _ (show 16 > 0 by omega))]

theorem parseHex_lt (s : PStr) : parseHex s < 16 ^ s.length := by
  have : ∀ (s : PStr) (a : Nat), s.foldl (fun acc c => acc * 16 + (hexVal? c).getD 0) a < (a + 1) * 16 ^ s.length := by
    intro s
    induction s with
    | nil => intro a; simp
    | cons c cs ih =>
      intro a
      rw [List.foldl_cons, List.length_cons]
      have h := ih (a * 16 + (hexVal? c).getD 0)
      have hc : (hexVal? c).getD 0 < 16 := by
        cases e : hexVal? c with
        | none => simp
        | some v => simpa using hexVal_lt e
      calc _ < _ := h
        _ ≤ ((a + 1) * 16) * 16 ^ cs.length := Nat.mul_le_mul_right _ (by omega)
        _ = _ := by rw [Nat.pow_succ, Nat.mul_assoc, Nat.mul_comm 16]
  have h := this s 0
  simpa [parseHex] using h

end Verif

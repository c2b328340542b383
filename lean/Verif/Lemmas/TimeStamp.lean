import Verif.Model.TimeStamp

namespace RFS
namespace TimeStamp

theorem chk32_some {x : Int} (h : InI32 x) : chk32 x = some x := by
  simp [chk32, h]

theorem chk32_eq_some {x y : Int} : chk32 x = some y ↔ InI32 x ∧ y = x := by
  unfold chk32; split <;> simp_all [eq_comm]

theorem chk32_none {x : Int} : chk32 x = none ↔ ¬ InI32 x := by
  unfold chk32; split <;> simp_all

theorem wrap32_of_in {x : Int} (h : InI32 x) : wrap32 x = x := by
  unfold wrap32 InI32 at *; omega

theorem tdiv_tmod_billion (n : Int) :
    Int.tmod n 1000000000 + 1000000000 * Int.tdiv n 1000000000 = n ∧
    (0 ≤ n → 0 ≤ Int.tmod n 1000000000) ∧ (n ≤ 0 → Int.tmod n 1000000000 ≤ 0) ∧
    -1000000000 < Int.tmod n 1000000000 ∧ Int.tmod n 1000000000 < 1000000000 := by
  refine ⟨Int.tmod_add_mul_tdiv n 1000000000, ?_, ?_, ?_, ?_⟩
  · intro h; exact Int.tmod_nonneg _ h
  · intro h
    have := Int.neg_tmod (a := n) (b := 1000000000)
    have h2 := Int.tmod_nonneg (a := -n) 1000000000 (by omega)
    omega
  · by_cases h : 0 ≤ n
    · have := Int.tmod_nonneg (a := n) 1000000000 h; omega
    · have := Int.neg_tmod (a := n) (b := 1000000000)
      have h2 := Int.tmod_lt_of_pos (-n) (b := 1000000000) (by omega)
      omega
  · exact Int.tmod_lt_of_pos n (by omega)

/-- `normalize` computes floor quotient and remainder of the instant, when the floor fits in `int32_t`. -/
theorem normalize_spec (t : TS) (hs : InI32 t.sec) (hn : InI32 t.nsec)
    (hf : InI32 ((t.sec * 1000000000 + t.nsec) / 1000000000)) :
    normalize t = some ⟨(t.sec * 1000000000 + t.nsec) / 1000000000,
                        (t.sec * 1000000000 + t.nsec) % 1000000000⟩ := by
  obtain ⟨h1, h2, h3, h4, h5⟩ := tdiv_tmod_billion t.nsec
  unfold normalize
  simp only
  generalize Int.tmod t.nsec 1000000000 = m at *
  generalize Int.tdiv t.nsec 1000000000 = q at *
  unfold InI32 at *
  have hw : wrap32 (t.sec + q) = t.sec + q := by
    unfold wrap32; omega
  rw [hw]
  split
  · rw [chk32_some (by unfold InI32; omega)]
    simp only [Option.map_some, Option.some.injEq, TS.mk.injEq]
    omega
  · simp only [Option.some.injEq, TS.mk.injEq]
    omega

theorem normalize_normalised (t u : TS) (h : normalize t = some u) :
    0 ≤ u.nsec ∧ u.nsec < 1000000000 ∧ InI32 u.sec := by
  obtain ⟨h1, h2, h3, h4, h5⟩ := tdiv_tmod_billion t.nsec
  unfold normalize at h
  simp only at h
  generalize Int.tmod t.nsec 1000000000 = m at *
  generalize Int.tdiv t.nsec 1000000000 = q at *
  split at h
  · rw [Option.map_eq_some_iff] at h
    obtain ⟨s, hs, rfl⟩ := h
    rw [chk32_eq_some] at hs
    obtain ⟨h6, rfl⟩ := hs
    exact ⟨by simp; omega, by simp; omega, h6⟩
  · cases h
    refine ⟨by simp; omega, by simp; omega, ?_⟩
    simp only; unfold wrap32 InI32; omega

/-- When the floor does not fit, `normalize` either overflows (`none`) or is off by exactly `2^32` seconds. -/
theorem normalize_overflow (t : TS) (hs : InI32 t.sec) (hn : InI32 t.nsec)
    (hf : ¬ InI32 ((t.sec * 1000000000 + t.nsec) / 1000000000)) (u : TS) (h : normalize t = some u) :
    u.sec * 1000000000 + u.nsec = t.sec * 1000000000 + t.nsec - 4294967296 * 1000000000 ∨
    u.sec * 1000000000 + u.nsec = t.sec * 1000000000 + t.nsec + 4294967296 * 1000000000 := by
  obtain ⟨h1, h2, h3, h4, h5⟩ := tdiv_tmod_billion t.nsec
  unfold normalize at h
  simp only at h
  generalize Int.tmod t.nsec 1000000000 = m at *
  generalize Int.tdiv t.nsec 1000000000 = q at *
  split at h
  · rw [Option.map_eq_some_iff] at h
    obtain ⟨s, hs, rfl⟩ := h
    rw [chk32_eq_some] at hs
    obtain ⟨h6, rfl⟩ := hs
    simp only
    unfold wrap32 InI32 at *; omega
  · cases h
    simp only
    unfold wrap32 InI32 at *; omega

theorem normalize_idem (t : TS) (h0 : 0 ≤ t.nsec) (h1 : t.nsec < 1000000000) (hs : InI32 t.sec) :
    normalize t = some t := by
  obtain ⟨s, n⟩ := t
  simp only at *
  have h : (s * 1000000000 + n) / 1000000000 = s := by omega
  have h' : (s * 1000000000 + n) % 1000000000 = n := by omega
  rw [normalize_spec _ hs (by unfold InI32 at *; simp only; omega) (by simp only [h]; exact hs)]
  simp only [h, h']

theorem truncQ_intCast (n : Int) : truncQ (n : Rat) = n := by
  simp [truncQ]

end TimeStamp
end RFS

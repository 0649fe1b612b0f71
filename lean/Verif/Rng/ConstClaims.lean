import Verif.Rng.Const1024
import Verif.Rng.Const2048

/-! # C239: the constants of the Marsaglia generators, all together -/

namespace Verif.Rng

/-- C239: the constants for 16, 128, 1024 and 2048 words are as the comment demands. That for 4096 words is not decided here. -/
theorem consts_full_partial : ∀ c ∈ consts, c.1 ∈ [16, 128, 1024, 2048] → FullPeriod c.1 c.2 := by
  intro c hc h
  simp only [consts, List.mem_cons, List.not_mem_nil, or_false] at hc
  rcases hc with rfl | rfl | rfl | rfl | rfl | rfl | rfl | rfl | rfl | rfl
  case inr.inl => exact Words2048.full
  case inr.inr.inl => exact full1024
  case inr.inr.inr.inr.inr.inl => exact full128
  case inr.inr.inr.inr.inr.inr.inr.inr.inl => exact full16
  all_goals exact absurd h (by decide)

/-- C239: those for 8, 32, 64, 256 and 512 words are not: three of the five named generators. -/
theorem consts_full_false : ∀ c ∈ consts, c.1 ∈ [8, 32, 64, 256, 512] → ¬ FullPeriod c.1 c.2 := by
  intro c hc h
  simp only [consts, List.mem_cons, List.not_mem_nil, or_false] at hc
  rcases hc with rfl | rfl | rfl | rfl | rfl | rfl | rfl | rfl | rfl | rfl
  case inr.inr.inr.inl => exact full512_false
  case inr.inr.inr.inr.inl => exact full256_false
  case inr.inr.inr.inr.inr.inr.inl => exact full64_false
  case inr.inr.inr.inr.inr.inr.inr.inl => exact full32_false
  case inr.inr.inr.inr.inr.inr.inr.inr.inr => exact full8_false
  all_goals exact absurd h (by decide)

/-- C239: for 8, 32 and 64 words the order of the base is smaller than the documented period by a factor of at least 3, 17 and 3. -/
theorem short_orders_false : orderOf (base32 : ZMod (716514398 * base32 ^ 8 + 1)) ∣ 716514398 * base32 ^ 8 / 3 ∧ orderOf (base32 : ZMod (547416522 * base32 ^ 32 + 1)) ∣ 547416522 * base32 ^ 32 / 17 ∧
    orderOf (base32 : ZMod (647535442 * base32 ^ 64 + 1)) ∣ 647535442 * base32 ^ 64 / 3 := ⟨short8, short32, short64⟩

/-- C239: each size has one constant. -/
theorem consts_sizes : consts.map Prod.fst = [4096, 2048, 1024, 512, 256, 128, 64, 32, 16, 8] ∧ ∀ n ∈ namedSizes, ∃ a, (n, a) ∈ consts := by
  refine ⟨rfl, ?_⟩
  intro n hn
  simp only [namedSizes, List.mem_cons, List.not_mem_nil, or_false] at hn
  rcases hn with rfl | rfl | rfl | rfl | rfl
  · exact ⟨18782, by decide⟩
  · exact ⟨123471786, by decide⟩
  · exact ⟨8001634, by decide⟩
  · exact ⟨647535442, by decide⟩
  · exact ⟨716514398, by decide⟩

example : (16, 487198574) ∈ consts ∧ FullPeriod 16 487198574 := ⟨by decide, full16⟩

end Verif.Rng

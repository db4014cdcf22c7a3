import Verif.Props.Cli

/-!
# C104: memory of a parallel insertion

The help text of `--jobs` (`poppy.rs:32-36`) says that a write operation copies the filter into the
memory of each job, so that the process needs N times the size of the filter.
-/

namespace Poppy

open Cli

/-- Bytes of the bits of a filter. -/
def Spec.storage : Bloom → ℕ
  | .v1 f => f.bitset.length * 8
  | .v2 f => (f.buckets.map fun b => b.asSlice.length).sum + f.indexCache.asSlice.length

/-- One filter is held for each batch, and each worker gets one. -/
theorem C104_filters {files : List Path} {jobs : ℕ} {bs : List (List Path)} (bf : Bloom)
    (hf : files ≠ []) (h : batches files jobs = .ok bs) :
    ((copies bf bs.length).map Spec.storage).sum = bs.length * Spec.storage bf ∧
      ∃ ws, startWorkers bs (copies bf bs.length) = .ok ws ∧ ws.length = bs.length := by
  have hb : bs ≠ [] := by
    rintro rfl
    exact hf (batches_spec h).2.1.symm
  have := List.length_pos_iff.2 hb
  refine ⟨?_, _, startWorkers_copies bf bs, List.length_map _⟩
  rw [copies_eq, Nat.sub_add_cancel this, List.map_replicate, List.sum_replicate, smul_eq_mul]

/-- The number of batches is at most the number of jobs exactly when there are fewer files than
jobs, or a multiple of the number of jobs. -/
theorem C104_exact {files : List Path} {jobs : ℕ} {bs : List (List Path)}
    (h : batches files jobs = .ok bs) :
    bs.length ≤ jobs ↔ files.length < jobs ∨ jobs ∣ files.length := by
  obtain ⟨hj, _, _, hl⟩ := batches_spec h
  rw [hl]
  rcases Nat.lt_or_ge files.length jobs with hn | hn
  · rw [Nat.div_eq_of_lt hn]
    simp only [Nat.zero_le, sup_of_le_right, Nat.add_sub_cancel, Nat.div_one]
    omega
  · have hd : 1 ≤ files.length / jobs := (Nat.one_le_div_iff hj).2 hn
    rw [max_eq_left hd, ← Nat.lt_succ_iff, Nat.div_lt_iff_lt_mul (by omega)]
    have e := Nat.div_add_mod files.length jobs
    have hm : jobs ∣ files.length ↔ files.length % jobs = 0 := Nat.dvd_iff_mod_eq_zero
    rw [hm]
    generalize files.length / jobs = q at *
    generalize files.length % jobs = r at *
    have e2 : (jobs + 1) * q = jobs * q + q := by ring
    rw [Nat.succ_eq_add_one, e2]
    omega

/-- Then the memory is as documented. -/
theorem C104_memory_partial {files : List Path} {jobs : ℕ} {bs : List (List Path)} (bf : Bloom)
    (hf : files ≠ []) (h : batches files jobs = .ok bs)
    (hn : files.length < jobs ∨ jobs ∣ files.length) :
    ((copies bf bs.length).map Spec.storage).sum ≤ jobs * Spec.storage bf := by
  rw [(C104_filters bf hf h).1]
  exact Nat.mul_le_mul_right _ ((C104_exact h).2 hn)

/-- It is never twice as much. -/
theorem C104_bound {files : List Path} {jobs : ℕ} {bs : List (List Path)} (bf : Bloom)
    (hf : files ≠ []) (h : batches files jobs = .ok bs) :
    ((copies bf bs.length).map Spec.storage).sum ≤ (2 * jobs - 1) * Spec.storage bf := by
  rw [(C104_filters bf hf h).1]
  exact Nat.mul_le_mul_right _ (C53_batches h).2.2.1

/-- In all other cases it is more than documented. -/
theorem C104_more {files : List Path} {jobs : ℕ} {bs : List (List Path)} {bf : Bloom}
    (hs : 0 < Spec.storage bf) (h : batches files jobs = .ok bs)
    (hn : jobs < files.length) (hd : ¬ jobs ∣ files.length) :
    jobs * Spec.storage bf < ((copies bf bs.length).map Spec.storage).sum := by
  have hf : files ≠ [] := by rintro rfl; simp at hn
  rw [(C104_filters bf hf h).1]
  have : ¬ bs.length ≤ jobs := by
    rw [C104_exact h]
    rintro (h | h)
    · omega
    · exact hd h
  exact Nat.mul_lt_mul_of_pos_right (by omega) hs

/-- With 3 files and 2 jobs there are 3 filters; in general up to `2 * jobs - 1`. -/
theorem C104_violated {jobs : ℕ} (hj : 2 ≤ jobs) {bf : Bloom} (hs : 0 < Spec.storage bf) :
    ∃ (files : List Path) (bs : List (List Path)), batches files jobs = .ok bs ∧
      ((copies bf bs.length).map Spec.storage).sum = (2 * jobs - 1) * Spec.storage bf ∧
      jobs * Spec.storage bf < ((copies bf bs.length).map Spec.storage).sum := by
  have hj' : 0 < jobs := by omega
  obtain ⟨bs, h⟩ := batches_ok (List.replicate (2 * jobs - 1) "x") hj'
  have hl := C53_more_threads hj' (List.length_replicate ..) h
  have hf : List.replicate (2 * jobs - 1) "x" ≠ [] := by
    intro he
    have := congrArg List.length he
    simp at this
    omega
  have e := (C104_filters bf hf h).1
  rw [hl] at e
  refine ⟨_, bs, h, by rw [hl]; exact e, ?_⟩
  rw [hl, e]
  exact Nat.mul_lt_mul_of_pos_right (by omega) hs

-- 7 files and 3 jobs make 4 batches, 6 files 3 batches, 2 files 2 batches
example : ∃ bs, batches ["a", "b", "c", "d", "e", "f", "g"] 3 = .ok bs ∧
    ((copies (.v1 Sample.f1) bs.length).map Spec.storage).sum = 4 * Spec.storage (.v1 Sample.f1) ∧
    0 < Spec.storage (.v1 Sample.f1) := ⟨_, rfl, by decide +kernel, by decide +kernel⟩
example : ∃ bs, batches ["a", "b", "c", "d", "e", "f"] 3 = .ok bs ∧
    ((copies (.v1 Sample.f1) bs.length).map Spec.storage).sum ≤ 3 * Spec.storage (.v1 Sample.f1) :=
  ⟨_, rfl, C104_memory_partial (files := ["a", "b", "c", "d", "e", "f"]) _ (by simp) rfl (.inr (by decide))⟩
example : ∃ bs, batches ["a", "b"] 3 = .ok bs ∧
    ((copies (.v2 Sample.f2) bs.length).map Spec.storage).sum ≤ 3 * Spec.storage (.v2 Sample.f2) :=
  ⟨_, rfl, C104_memory_partial (files := ["a", "b"]) _ (by simp) rfl (.inl (by decide))⟩

end Poppy

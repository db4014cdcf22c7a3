import Verif.Props.Counting
import Verif.Props.Membership
import Verif.Lemmas.CliInsert
import Verif.Lemmas.CliCommands

/-! # Lemmas for C111: insertions that succeed -/

namespace Poppy

open Spec

theorem dedup_append_new {α : Type} [DecidableEq α] {ks : List α} {k : α} (h : k ∉ ks) :
    (ks ++ [k]).dedup.length = ks.dedup.length + 1 := by
  have p : (ks ++ [k]).dedup.Perm (k :: ks).dedup := (List.perm_append_singleton k ks).dedup
  rw [p.length_eq, List.dedup_cons_of_notMem h, List.length_cons]

theorem dedup_append_le {α : Type} [DecidableEq α] (ks : List α) (k : α) :
    ks.dedup.length ≤ (ks ++ [k]).dedup.length := by
  by_cases h : k ∈ ks
  · have p : (ks ++ [k]).dedup.Perm (k :: ks).dedup := (List.perm_append_singleton k ks).dedup
    rw [p.length_eq, List.dedup_cons_of_mem h]
  · rw [dedup_append_new h]; omega

/-- Insertions into a new v2 filter succeed as long as there are not more different keys than the
capacity. -/
theorem V2.allOk_distinct [DecidableEq Key] {env : Env} (sp : env.libm.Spec) (hs : env.Small)
    {cap : U64} {fpp : F64} {opt : OptLevel} {f : V2} (h : V2.make env cap fpp opt = .ok f)
    (hc : cap ≠ 0) (ks : List Key) (hk : ks.dedup.length ≤ cap.toNat) : V2.AllOk env f ks := by
  induction ks using List.reverseRecOn with
  | nil => trivial
  | append_singleton ks k ih =>
    have ih := ih (le_trans (dedup_append_le ks k) hk)
    rw [V2.AllOk_append]
    refine ⟨ih, ?_, trivial⟩
    have hb := V2.Built.inserts (V2.Built.make h) ks
    have e := V2.inserts_ext env f ks
    have hcap : (V2.inserts env f ks).capacity = cap := by
      rw [e.capacity]; obtain ⟨_, _, _, _, _, _, _, rfl⟩ := V2.make_ok h; rfl
    obtain ⟨_, n2, n3⟩ := C09_v2_new h ks
    have hle : (V2.inserts env f ks).countEstimate.toNat ≤ (V2.inserts env f ks).capacity.toNat := by
      rw [hcap]; exact n3
    rcases C10_v2_total sp hs hb hle k with he | ⟨g, b, he⟩
    · rcases (C10_v2 sp hs hb hle k).1 he with h0 | ⟨h0, n, hn, hbit⟩
      · rw [hcap] at h0; exact absurd h0 hc
      · exfalso
        by_cases hm : k ∈ ks
        · have := ((V2.AllOk.bits (V2.Reach.make h).wf ih).1 _ _).2
            (Or.inr ⟨k, hm, rfl, n, by rw [← e.nHash]; exact hn, rfl⟩)
          rw [V2.keyBit, V2.bucketBit_eq, V2.keyBucket_eq, V2.keyProbe_eq,
            V2.bucketOf_congr e.blen] at hbit
          rw [this] at hbit
          cases hbit
        · rw [dedup_append_new hm] at hk
          rw [h0, hcap] at n2
          omega
    · exact ⟨b, by rw [he]⟩

/-- The same for v1. -/
theorem V1.allOk_distinct {env : Env} (sp : env.libm.Spec) (hs : env.Small)
    {cap : U64} {fpp : F64} {f : V1} (h : V1.withCapacity env cap fpp = .ok f)
    (hc : cap ≠ 0) (ks : List (List U8)) (hk : ks.dedup.length ≤ cap.toNat) :
    V1.AllOk env f ks := by
  induction ks using List.reverseRecOn with
  | nil => trivial
  | append_singleton ks k ih =>
    have ih := ih (le_trans (dedup_append_le ks k) hk)
    rw [V1.AllOk_append]
    refine ⟨ih, ?_, trivial⟩
    have hb := V1.Built.inserts (V1.Built.make h) ks
    have e := V1.inserts_ext env f ks
    have hcap : (V1.inserts env f ks).capacity = cap := by
      rw [e.capacity]; obtain ⟨_, _, rfl⟩ := V1.withCapacity_ok h; rfl
    obtain ⟨_, n2, n3⟩ := C09_v1_new hs h ks
    rcases V1.insert_step env (hb.reach.wf hs) k with
      ⟨h1, h2⟩ | ⟨h1, hc, hm, hk⟩ | ⟨h1, _, h2, h3⟩
    · exfalso
      rcases h2 with h2 | ⟨_, _, h2, hbit⟩
      · rw [hcap] at h2; exact hc h2
      · obtain ⟨n, hn, hbit⟩ := (V1.not_allSet_key _ _).1 hbit
        by_cases hm : k ∈ ks
        · have := (V1.AllOk.bits ((V1.Reach.make h).wf hs) ih (dcsoProbe k f.bitSize.toNat n)).2
            (Or.inr ⟨k, hm, n, by rw [← e.nHash]; exact hn, rfl⟩)
          rw [e.bitSize, this] at hbit
          cases hbit
        · rw [dedup_append_new hm] at hk
          rw [BitVec.le_def, hcap] at h2
          have : (V1.inserts env f ks).count.toNat ≤ ks.dedup.length := n2
          omega
    · exact absurd ((hb.bits sp).1.1 hm) hk
    · exact ⟨_, by rw [h1]⟩

end Poppy

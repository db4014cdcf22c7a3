import Verif.Lemmas.Compat
import Verif.Lemmas.Room

/-! # Room left in a filter -/

namespace Poppy

/-- Insertions succeed as long as there are not more new keys than there is room left. -/
theorem V2.allOk_room [DecidableEq Key] {env : Env} {f : V2} (w : f.WF) (hc : f.capacity ≠ 0)
    (hb : f.buckets ≠ []) {ks : List Key} {new : Finset Key}
    (hk : ∀ k ∈ ks, V2.allSet env f (k.hashPop env.wy) = true ∨ k ∈ new)
    (hn : f.count.toNat + new.card ≤ f.capacity.toNat) :
    V2.AllOk env f ks ∧
      (V2.inserts env f ks).count.toNat ≤ f.count.toNat + new.card := by
  induction ks generalizing f new with
  | nil => exact ⟨trivial, by simp [V2.inserts]⟩
  | cons k ks ih =>
    rcases V2.insert_step env w (by omega) k with ⟨h1, h2⟩ | ⟨_, _, h2⟩ | ⟨h1, _, _, h3⟩
    · exfalso
      rcases h2 with h2 | ⟨_, _, h2, h3⟩
      · exact hc h2
      · rcases hk k (by simp) with h | h
        · rw [h3] at h; cases h
        · have := Finset.card_pos.2 ⟨k, h⟩
          rw [h2] at hn
          omega
    · exact absurd h2 hb
    · have w' := V2.added_WF env w (k.hashPop env.wy)
      have hb' : (V2.added env f (k.hashPop env.wy)).buckets ≠ [] := by
        intro h
        have := congrArg List.length h
        rw [V2.added_length] at this
        exact hb (List.length_eq_zero_iff.1 this)
      have hext : V2.Ext f (V2.added env f (k.hashPop env.wy)) := by
        have := V2.insert_ext env f k
        rwa [h1] at this
      have hself := V2.allSet_added env hb (k.hashPop env.wy)
      show ((∃ b, (f.insert env k).2 = .ok b) ∧ V2.AllOk env (f.insert env k).1 ks) ∧
        (V2.inserts env (f.insert env k).1 ks).count.toNat ≤ _
      rw [h1]
      cases ha : V2.allSet env f (k.hashPop env.wy) with
      | true =>
        have hcount := V2.added_count_of_member env ha
        obtain ⟨i1, i2⟩ := ih w' hc hb' (new := new) (fun k' h' => (hk k' (by simp [h'])).imp
          (V2.allSet_ext hext) id) (by rw [hcount]; exact hn)
        exact ⟨⟨⟨_, rfl⟩, i1⟩, by rw [hcount] at i2; exact i2⟩
      | false =>
        have hlt := V2.count_lt (by omega) (fun h => h3 ⟨h, ha⟩)
        have hcount := V2.added_count_of_new env hlt ha
        have hm : k ∈ new := (hk k (by simp)).resolve_left (by rw [ha]; simp)
        have hcard := Finset.card_erase_add_one hm
        obtain ⟨i1, i2⟩ := ih w' hc hb' (new := new.erase k) (fun k' h' => by
          by_cases he : k' = k
          · subst he; exact Or.inl hself
          · exact (hk k' (by simp [h'])).imp (V2.allSet_ext hext)
              (fun h => Finset.mem_erase.2 ⟨he, h⟩))
          (by rw [hcount]; show f.count.toNat + 1 + (new.erase k).card ≤ f.capacity.toNat; omega)
        refine ⟨⟨⟨_, rfl⟩, i1⟩, ?_⟩
        rw [hcount] at i2
        exact i2.trans (by omega)

/-- The same for v1. -/
theorem V1.allOk_room {env : Env} {f : V1} (w : f.WF) (hc : f.capacity ≠ 0)
    (hb : f.bitSize ≠ 0 ∨ f.nHash = 0) {ks : List (List U8)} {new : Finset (List U8)}
    (hk : ∀ k ∈ ks, f.allSet k = true ∨ k ∈ new)
    (hn : f.count.toNat + new.card ≤ f.capacity.toNat) :
    V1.AllOk env f ks ∧
      (V1.inserts env f ks).count.toNat ≤ f.count.toNat + new.card := by
  induction ks generalizing f new with
  | nil => exact ⟨trivial, by simp [V1.inserts]⟩
  | cons k ks ih =>
    rcases V1.insert_step env w k with ⟨h1, h2⟩ | ⟨_, _, h2, h3⟩ | ⟨h1, _, _, h3⟩
    · exfalso
      rcases h2 with h2 | ⟨_, _, h2, h3⟩
      · exact hc h2
      · rcases hk k (by simp) with h | h
        · rw [h3] at h; cases h
        · have := Finset.card_pos.2 ⟨k, h⟩
          rw [BitVec.le_def] at h2
          omega
    · exact (hb.elim (fun h => h h2) h3).elim
    · have w' := V1.added_WF w k
      have hext : V1.Ext f (f.added k) := by
        have := V1.inserts_ext env f [k]
        unfold V1.inserts V1.inserts at this
        rwa [h1] at this
      have hself := V1.allSet_added w k hb
      show ((∃ b, (f.insertBytes env k).2 = .ok b) ∧ V1.AllOk env (f.insertBytes env k).1 ks) ∧
        (V1.inserts env (f.insertBytes env k).1 ks).count.toNat ≤ _
      rw [h1]
      cases ha : f.allSet k with
      | true =>
        have hcount : (f.added k).count = f.count := by rw [V1.added_self ha]
        obtain ⟨i1, i2⟩ := ih w' hc hb (new := new) (fun k' h' => (hk k' (by simp [h'])).imp
          (V1.allSet_ext hext) id) (by rw [hcount]; exact hn)
        exact ⟨⟨⟨_, rfl⟩, i1⟩, by rw [hcount] at i2; exact i2⟩
      | false =>
        have hlt := V1.count_lt (fun h => h3 ⟨h, ha⟩)
        have hcount := V1.added_count_of_new hlt ha
        have hm : k ∈ new := (hk k (by simp)).resolve_left (by rw [ha]; simp)
        have hcard := Finset.card_erase_add_one hm
        obtain ⟨i1, i2⟩ := ih w' hc hb (new := new.erase k) (fun k' h' => by
          by_cases he : k' = k
          · subst he; exact Or.inl hself
          · exact (hk k' (by simp [h'])).imp (V1.allSet_ext hext)
              (fun h => Finset.mem_erase.2 ⟨he, h⟩))
          (by rw [hcount]; show f.count.toNat + 1 + (new.erase k).card ≤ f.capacity.toNat; omega)
        refine ⟨⟨⟨_, rfl⟩, i1⟩, ?_⟩
        rw [hcount] at i2
        exact i2.trans (by omega)

end Poppy

import Mathlib.Data.Fintype.BigOperators
import Verif.Lemmas.Merge

/-!
# Lemmas on sizes, statistics and the version independent filter
-/

namespace Poppy

open Spec

theorem card_countBelow (m : ℕ) (p : ℕ → Bool) :
    Fintype.card {i : Fin m // p i = true} = countBelow m p := by
  rw [Fintype.card_subtype]
  unfold countBelow
  rw [List.countP_eq_length_filter]
  have h : (Finset.univ.filter fun i : Fin m => p i = true).card
      = ((Finset.range m).filter fun i => p i = true).card := by
    rw [← Finset.card_map Fin.valEmbedding]
    congr 1
    ext i
    simp only [Finset.mem_map, Finset.mem_filter, Finset.mem_univ, true_and,
      Fin.valEmbedding_apply, Finset.mem_range]
    constructor
    · rintro ⟨a, ha, rfl⟩; exact ⟨a.isLt, ha⟩
    · rintro ⟨h1, h2⟩; exact ⟨⟨i, h1⟩, h2, rfl⟩
  rw [h, ← List.toFinset_card_of_nodup (List.nodup_range.filter _)]
  congr 1
  ext i
  simp

/-- Number of tuples of `k` positions that are all set. -/
theorem card_tuples (k m : ℕ) (p : ℕ → Bool) :
    Fintype.card {t : Fin k → Fin m // ∀ j, p (t j) = true} = countBelow m p ^ k := by
  rw [Fintype.card_congr (Equiv.subtypePiEquivPi (p := fun (_ : Fin k) (i : Fin m) => p i = true)),
    Fintype.card_fun, Fintype.card_fin, card_countBelow]

namespace Bloom

theorem Reach.insert {env : Env} {f : Bloom} (h : Reach env f) (k : List U8) :
    Reach env (f.insertBytes env k).1 := by
  cases f with
  | v1 f => exact V1.Reach.insert k h
  | v2 f =>
    show V2.Reach env (f.insertIter env (V2.buildIndexIter env (.slice k))).1
    exact V2.Reach.insertIter _ h

theorem Reach.inserts {env : Env} {f : Bloom} (h : Reach env f) (ks : List (List U8)) :
    Reach env (f.inserts env ks) := by
  induction ks generalizing f with
  | nil => exact h
  | cons k ks ih => exact ih (h.insert k)

theorem inserts_append (env : Env) (f : Bloom) (a b : List (List U8)) :
    f.inserts env (a ++ b) = (f.inserts env a).inserts env b := by
  induction a generalizing f with
  | nil => rfl
  | cons k a ih => exact ih _

theorem allOk_append (env : Env) (f : Bloom) (a b : List (List U8)) :
    f.AllOk env (a ++ b) ↔ f.AllOk env a ∧ (f.inserts env a).AllOk env b := by
  induction a generalizing f with
  | nil => simp [AllOk, inserts]
  | cons k a ih =>
    show _ ∧ AllOk env (f.insertBytes env k).1 (a ++ b) ↔
      (_ ∧ AllOk env (f.insertBytes env k).1 a) ∧ AllOk env (inserts env (f.insertBytes env k).1 a) b
    rw [ih, and_assoc]

theorem HasBits.insert {env : Env} {f : Bloom} (h : HasBits f) (k : List U8) :
    HasBits (f.insertBytes env k).1 := by
  cases f with
  | v1 f =>
    show (f.insertBytes env k).1.bitSize ≠ 0
    rw [(V1.insertBytes_ext env f k).bitSize]; exact h
  | v2 f => trivial

theorem HasBits.inserts {env : Env} {f : Bloom} (h : HasBits f) (ks : List (List U8)) :
    HasBits (f.inserts env ks) := by
  induction ks generalizing f with
  | nil => exact h
  | cons k ks ih => exact ih (h.insert k)

theorem inserts_v1 (env : Env) (f : V1) (ks : List (List U8)) :
    (Bloom.v1 f).inserts env ks = .v1 (V1.inserts env f ks) := by
  induction ks generalizing f with
  | nil => rfl
  | cons k ks ih => exact ih _

theorem inserts_v2 (env : Env) (f : V2) (ks : List (List U8)) :
    (Bloom.v2 f).inserts env ks = .v2 (V2.inserts env f (ks.map Key.slice)) := by
  induction ks generalizing f with
  | nil => rfl
  | cons k ks ih => exact ih _

theorem allOk_v1 (env : Env) (f : V1) (ks : List (List U8)) :
    (Bloom.v1 f).AllOk env ks ↔ V1.AllOk env f ks := by
  induction ks generalizing f with
  | nil => exact Iff.rfl
  | cons k ks ih => exact and_congr Iff.rfl (ih _)

theorem allOk_v2 (env : Env) (f : V2) (ks : List (List U8)) :
    (Bloom.v2 f).AllOk env ks ↔ V2.AllOk env f (ks.map Key.slice) := by
  induction ks generalizing f with
  | nil => exact Iff.rfl
  | cons k ks ih => exact and_congr Iff.rfl (ih _)

theorem fill_ok {env : Env} {f g : Bloom} {ds : List (List U8)}
    (h : f.fill env ds = (g, .ok ())) : g = f.inserts env ds ∧ f.AllOk env ds := by
  induction ds generalizing f with
  | nil => simp only [fill, Prod.mk.injEq, and_true] at h; exact ⟨h.symm, trivial⟩
  | cons k ds ih =>
    rw [fill] at h
    split at h
    · rename_i f' b he
      obtain ⟨h1, h2⟩ := ih h
      refine ⟨?_, ⟨b, by rw [he]⟩, by rw [he]; exact h2⟩
      show g = inserts env (f.insertBytes env k).1 ds
      rw [he]; exact h1
    · cases h
    · cases h

theorem fill_of_allOk {env : Env} {f : Bloom} {ds : List (List U8)} (h : f.AllOk env ds) :
    f.fill env ds = (f.inserts env ds, .ok ()) := by
  induction ds generalizing f with
  | nil => rfl
  | cons k ds ih =>
    obtain ⟨⟨b, hb⟩, h2⟩ := h
    rw [fill, show f.insertBytes env k = ((f.insertBytes env k).1, .ok b) by rw [← hb]]
    exact ih h2

theorem fill_fail {env : Env} {f g : Bloom} {ds : List (List U8)} {r : Res Unit}
    (h : f.fill env ds = (g, r)) (hr : r ≠ .ok ()) :
    ∃ pre k post, ds = pre ++ k :: post ∧ f.AllOk env pre ∧
      ((∃ e, r = .err e ∧ (f.inserts env pre).insertBytes env k = (g, .err e)) ∨
        r = .panic ∧ (f.inserts env pre).insertBytes env k = (g, .panic)) := by
  induction ds generalizing f with
  | nil => simp only [fill, Prod.mk.injEq] at h; exact absurd h.2.symm hr
  | cons k ds ih =>
    rw [fill] at h
    split at h
    · rename_i f' b he
      obtain ⟨pre, k', post, rfl, h2, h3⟩ := ih h
      refine ⟨k :: pre, k', post, rfl, ⟨⟨b, by rw [he]⟩, by rw [he]; exact h2⟩, ?_⟩
      show (∃ e, r = .err e ∧
        (inserts env (f.insertBytes env k).1 pre).insertBytes env k' = (g, .err e)) ∨
        r = .panic ∧ (inserts env (f.insertBytes env k).1 pre).insertBytes env k' = (g, .panic)
      rw [he]; exact h3
    · rename_i f' e he
      cases h
      exact ⟨[], k, ds, rfl, trivial, Or.inl ⟨e, rfl, he⟩⟩
    · rename_i f' he
      cases h
      exact ⟨[], k, ds, rfl, trivial, Or.inr ⟨rfl, he⟩⟩

theorem insert_err {env : Env} (hs : env.Small) {f g : Bloom} (hf : Reach env f) {k : List U8}
    {e : Error} (h : f.insertBytes env k = (g, .err e)) : g = f ∧ e = .tooManyEntries := by
  cases f with
  | v1 f =>
    have h1 : g = .v1 (f.insertBytes env k).1 := (congrArg Prod.fst h).symm
    have h2 : (f.insertBytes env k).2 = .err e := congrArg Prod.snd h
    obtain ⟨h3, h4, _⟩ := V1.insert_err env (V1.Reach.wf hf hs) (k := k)
      (show f.insertBytes env k = ((f.insertBytes env k).1, .err e) by rw [← h2])
    exact ⟨by rw [h1, h3], h4⟩
  | v2 f =>
    have h1 : g = .v2 (f.insert env (.slice k)).1 := (congrArg Prod.fst h).symm
    have h2 : (f.insert env (.slice k)).2 = .err e := congrArg Prod.snd h
    obtain ⟨h3, h4, _⟩ := V2.insert_err env (V2.Reach.wf hf) (k := .slice k)
      (show f.insert env (.slice k) = ((f.insert env (.slice k)).1, .err e) by rw [← h2])
    exact ⟨by rw [h1, h3], h4⟩

end Bloom

theorem V2.keeps_inserts (env : Env) (k : Key) (f g : V2) (ks : List Key)
    (h : V2.Keeps env k f g) : V2.Keeps env k f (V2.inserts env g ks) := by
  induction ks generalizing g with
  | nil => exact h
  | cons k' ks ih => exact ih _ (.step h (.insert k'))

theorem V1.keeps_inserts (env : Env) (f g : V1) (ks : List (List U8))
    (h : V1.Keeps env f g) : V1.Keeps env f (V1.inserts env g ks) := by
  induction ks generalizing g with
  | nil => exact h
  | cons k' ks ih => exact ih _ (.step h (.insert k'))

namespace V1

theorem bits_eq {f : V1} (w : f.WF) :
    f.bits = .ok ((List.range f.bitSize.toNat).map (bitAt f.bitset)) := by
  unfold bits
  have hlt := f.bitSize.isLt
  have hs := w.size
  have key : ∀ l : List ℕ, (∀ i ∈ l, i < f.bitSize.toNat) →
      l.foldr (fun i acc => do
        let b ← f.getNthBit (BitVec.ofNat 64 i)
        let bs ← acc
        Res.ok (b :: bs)) (.ok []) = .ok (l.map (bitAt f.bitset)) := by
    intro l
    induction l with
    | nil => intro _; rfl
    | cons i l ih =>
      intro h
      have hi := h i (by simp)
      have hn : (BitVec.ofNat 64 i).toNat = i := by
        rw [BitVec.toNat_ofNat, Nat.mod_eq_of_lt (by omega)]
      rw [List.foldr_cons, ih (fun j hj => h j (by simp [hj])),
        getNthBit_eq f (by rw [hn]; omega), hn]
      rfl
  exact key _ (fun i hi => List.mem_range.1 hi)

theorem padding_insert {env : Env} {f : V1} (w : f.WF) (k : List U8)
    (hp : ∀ i, bitAt f.bitset i = true → i < f.bitSize.toNat) (i : ℕ)
    (hi : bitAt (f.insertBytes env k).1.bitset i = true) :
    i < (f.insertBytes env k).1.bitSize.toNat := by
  rw [(insertBytes_ext env f k).bitSize]
  rcases insert_step env w k with ⟨h, _⟩ | ⟨h, _⟩ | ⟨h, _, hm, _⟩ <;> rw [h] at hi
  · exact hp i hi
  · exact hp i hi
  · by_cases hk : f.nHash = 0
    · rw [added_noHash hk] at hi; exact hp i hi
    · have hb : f.bitSize ≠ 0 := by tauto
      rw [bit_added w hb] at hi
      simp only [Bool.or_eq_true, decide_eq_true_eq] at hi
      rcases hi with hi | ⟨n, _, rfl⟩
      · exact hp i hi
      · exact probe_lt k hb n

end V1

namespace Stats

theorem add_one_exact {n : ℕ} (h : n < 2 ^ 53) : FVal.add (.fin n) .one = .fin ((n + 1 : ℕ) : ℚ) := by
  have := rnd_nat (m := n + 1) h
  unfold FVal.add FVal.one
  simp only
  rw [← this]
  push_cast
  rfl

/-- Everything is counted exactly. -/
theorem run_exact (evs : List Event) (h : evs.length < 2 ^ 53) :
    (evs.foldl record new).tp = .fin (evs.count .tp : ℕ) ∧
    (evs.foldl record new).fn = .fin (evs.count .fn : ℕ) ∧
    (evs.foldl record new).fp = .fin (evs.count .fp : ℕ) ∧
    (evs.foldl record new).tn = .fin (evs.count .tn : ℕ) ∧
    (evs.foldl record new).total.toNat = evs.length := by
  induction evs using List.reverseRecOn with
  | nil => simp [new]
  | append_singleton evs e ih =>
    rw [List.length_append, List.length_singleton] at h
    obtain ⟨h1, h2, h3, h4, h5⟩ := ih (by omega)
    have c1 := List.count_le_length (a := Event.tp) (l := evs)
    have c2 := List.count_le_length (a := Event.fn) (l := evs)
    have c3 := List.count_le_length (a := Event.fp) (l := evs)
    have c4 := List.count_le_length (a := Event.tn) (l := evs)
    have ht : ((evs.foldl record new).total + 1).toNat = evs.length + 1 := by
      rw [BitVec.toNat_add, h5]
      have : (1 : U64).toNat = 1 := rfl
      rw [this, Nat.mod_eq_of_lt (by omega)]
    rw [List.foldl_append, List.length_append]
    simp only [List.foldl_cons, List.foldl_nil, List.length_singleton, List.count_append]
    cases e <;> simp only [record, incTp, incFn, incFp, incTn] <;>
      refine ⟨?_, ?_, ?_, ?_, ht⟩ <;>
      first
        | (rw [h1, add_one_exact (by omega)]; simp)
        | (rw [h2, add_one_exact (by omega)]; simp)
        | (rw [h3, add_one_exact (by omega)]; simp)
        | (rw [h4, add_one_exact (by omega)]; simp)
        | (rw [h1]; simp)
        | (rw [h2]; simp)
        | (rw [h3]; simp)
        | (rw [h4]; simp)

end Stats

/-- Division of a size by a unit. -/
theorem ByteSize.div_pow (b u : U64) (e : ℕ) (hu : u.toNat = 2 ^ e) (he : e ≤ 30) :
    ∃ q : ℚ, FVal.div (FVal.ofU64 b) (FVal.ofU64 u) = .fin q ∧
      (2 ^ e ≤ b.toNat → 1 ≤ q) ∧ (b.toNat ≤ 2 ^ 53 → q = b.toNat / 2 ^ e) := by
  have hpe : (2 : ℕ) ^ e ≤ 2 ^ 53 := Nat.pow_le_pow_right (by omega) (by omega)
  have hpos : (0 : ℚ) < 2 ^ e := by positivity
  obtain ⟨x, hx, hx0, hxF, hxr⟩ := ofU64_fin b
  have hxle : x ≤ 2 ^ 64 := by
    rw [hxr]
    exact rndQ_le _ (by simpa using isF_two_zpow (e := 64) (by norm_num))
      (by exact_mod_cast b.isLt.le)
  have hd : FVal.div (FVal.ofU64 b) (FVal.ofU64 u) = rnd (x / 2 ^ e) := by
    rw [hx, ofU64_exact (by rw [hu]; exact hpe), hu]
    unfold FVal.div
    simp only [Nat.cast_pow, Nat.cast_ofNat]
    rw [if_neg (ne_of_gt hpos)]
  have habs : |x / 2 ^ e| ≤ 2 ^ 64 := by
    rw [abs_of_nonneg (by positivity)]
    refine le_trans (div_le_self hx0 ?_) hxle
    exact one_le_pow₀ (by norm_num)
  have hr := (rnd_fin (K := ℚ) (by simpa using isF_two_zpow (e := 64) (by norm_num))
    (two_pow_lt_f64Huge (by norm_num)) habs).1
  refine ⟨_, by rw [hd, hr], fun h => ?_, fun h => ?_⟩
  · apply le_rndQ _ isF_one
    rw [Rat.cast_one, le_div_iff₀ hpos, one_mul, hxr]
    apply le_rndQ _ (by simpa using isF_two_zpow (e := e) (by omega))
    push_cast
    exact_mod_cast h
  · have hxe : x = b.toNat := by
      rw [ofU64_exact h] at hx; cases hx; rfl
    rw [hxe]
    have := rndQ_of_isF (K := ℚ) (isF_dyadic (b.toNat : ℤ) e
      (by rw [abs_of_nonneg (by positivity)]; exact_mod_cast h) (by omega))
    simpa using this

end Poppy

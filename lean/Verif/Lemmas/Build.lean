import Verif.BuildSpec
import Verif.AbstractMain
import Verif.RefineBloom
import Verif.Model.PyCalls

/-!
# Release builds, and more memory: lemmas
-/

namespace Poppy

/-- The first panics, or both are the same. -/
def Res.Le {α : Type} (a b : Res α) : Prop := a = .panic ∨ b = a

/-- The first panics, or both are the same, together with the state. -/
def Res.StLe {σ α : Type} (a b : σ × Res α) : Prop := a.2 = .panic ∨ b = a

namespace Res

variable {α β σ τ : Type}

theorem Le.refl (a : Res α) : Le a a := .inr rfl

theorem StLe.refl (a : σ × Res α) : StLe a a := .inr rfl

theorem Le.bind {x y : Res α} {f g : α → Res β} (h : Le x y) (hf : ∀ a, Le (f a) (g a)) :
    Le (x >>= f) (y >>= g) := by
  rcases h with h | h
  · subst h; exact .inl rfl
  · subst h
    cases y with
    | ok a => exact hf a
    | err e => exact .inr rfl
    | panic => exact .inl rfl

theorem Le.map {x y : Res α} (h : Le x y) (f : α → β) : Le (x.map f) (y.map f) := by
  rcases h with h | h
  · subst h; exact .inl rfl
  · subst h; exact .refl _

theorem Le.unwrap {x y : Res α} (h : Le x y) : Le x.unwrap y.unwrap := by
  rcases h with h | h
  · subst h; exact .inl rfl
  · subst h; exact .refl _

theorem Le.ite {p : Prop} [Decidable p] {x y x' y' : Res α} (h : Le x y) (h' : Le x' y') :
    Le (if p then x else x') (if p then y else y') := by
  split <;> assumption

end Res

open Res

variable {e e' : Env}

namespace Env.Laxer

theorem checks (h : e.Laxer e') : e.debug = true ∨ e'.debug = e.debug := by
  cases h1 : e.debug
  · right
    cases h2 : e'.debug
    · rfl
    · exact absurd (h.debug h2) (by rw [h1]; decide)
  · exact .inl rfl

theorem add (h : e.Laxer e') (a b : U64) : Le (addU64 e.debug a b) (addU64 e'.debug a b) := by
  unfold addU64
  rcases h.checks with h | h
  · rw [h]
    by_cases hp : 2 ^ 64 ≤ a.toNat + b.toNat
    · left; rw [decide_eq_true hp]; rfl
    · right; rw [decide_eq_false hp, Bool.and_false, Bool.and_false]
  · rw [h]; exact .refl _

theorem mul (h : e.Laxer e') (a b : U64) : Le (mulU64 e.debug a b) (mulU64 e'.debug a b) := by
  unfold mulU64
  rcases h.checks with h | h
  · rw [h]
    by_cases hp : 2 ^ 64 ≤ a.toNat * b.toNat
    · left; rw [decide_eq_true hp]; rfl
    · right; rw [decide_eq_false hp, Bool.and_false, Bool.and_false]
  · rw [h]; exact .refl _

theorem pow (h : e.Laxer e') (a : U64) :
    Le (nextPowerOfTwo e.debug a) (nextPowerOfTwo e'.debug a) := by
  unfold nextPowerOfTwo
  rcases h.checks with h | h
  · rw [h]
    refine .ite (.refl _) ?_
    dsimp only
    split
    · exact .refl _
    · exact .inl rfl
  · rw [h]; exact .refl _

theorem room (h : e.Laxer e') (n s : ℕ) : Le (e.alloc n s) (e'.alloc n s) := by
  unfold Env.alloc
  by_cases hp : n * s ≤ e.allocLimit
  · right; rw [if_pos hp, if_pos (hp.trans h.alloc)]
  · left; rw [if_neg hp]

theorem check (h : e.Laxer e') {σ α : Type} {p : Prop} [Decidable p] {s : σ} {x y : σ × Res α}
    (hxy : StLe x y) :
    StLe (if (e.debug && decide p) = true then (s, .panic) else x)
      (if (e'.debug && decide p) = true then (s, .panic) else y) := by
  by_cases hp : p
  · rw [decide_eq_true hp, Bool.and_true, Bool.and_true]
    rcases h.checks with h | h
    · rw [if_pos h]; exact .inl rfl
    · rw [h]
      split
      · exact .inl rfl
      · exact hxy
  · rw [decide_eq_false hp, Bool.and_false, Bool.and_false]
    exact hxy

theorem sum (h : e.Laxer e') (l : List U64) : Le (V2.sumU64 e.debug l) (V2.sumU64 e'.debug l) := by
  have key : ∀ (l : List U64) (a b : Res U64), Le a b →
      Le (l.foldl (fun acc x => do let a ← acc; addU64 e.debug a x) a)
        (l.foldl (fun acc x => do let a ← acc; addU64 e'.debug a x) b) := by
    intro l
    induction l with
    | nil => intro a b hab; exact hab
    | cons x l ih => intro a b hab; exact ih _ _ (hab.bind fun a => h.add a x)
  exact key l _ _ (.refl _)

end Env.Laxer

/-! ## Version 1 -/

namespace V1

theorem withCapacity_lax (h : e.Laxer e') (cap : U64) (fpp : F64) :
    Le (withCapacity e cap fpp) (withCapacity e' cap fpp) := by
  unfold withCapacity
  rw [h.libm]
  refine .ite (.refl _) ?_
  dsimp only
  rcases h.room (u64SizeFor (bitSizeFor e.libm cap (FVal.ofBits fpp))).toNat 8 with h | h
  · rw [h]; exact .inl rfl
  · rw [h]; exact .refl _

theorem readBitset_lax (h : e.Laxer e') (n : U64) (b : Bool) (r : Reader) :
    Le (readBitset e n b r) (readBitset e' n b r) := by
  unfold readBitset
  refine .ite ?_ ?_
  · rcases h.mul (u64SizeFor n) 8#64 with h | h
    · rw [h]; exact .inl rfl
    · rw [h]; exact .refl _
  · rcases h.room (u64SizeFor n).toNat 8 with h | h
    · rw [h]; exact .inl rfl
    · rw [h]; exact .refl _

theorem fromReaderWithFlags_lax (h : e.Laxer e') (fl : Flags) (b : Bool) (r : Reader) :
    Le (fromReaderWithFlags e fl b r) (fromReaderWithFlags e' fl b r) := by
  unfold fromReaderWithFlags
  iterate 5 refine Le.bind (.refl _) fun _ => ?_
  exact Le.bind (readBitset_lax h _ _ _) fun _ => .refl _

theorem fromReader_lax (h : e.Laxer e') (r : Reader) : Le (fromReader e r) (fromReader e' r) := by
  unfold fromReader fromReader'
  refine Le.bind (.refl _) fun _ => ?_
  exact .ite (.refl _) (fromReaderWithFlags_lax h _ _ _)

theorem insertLoop_lax (h : e.Laxer e') (n : ℕ) (f : V1) (fp : Fingerprint) (new : Bool) :
    StLe (insertLoop e n f fp new) (insertLoop e' n f fp new) := by
  induction n generalizing f fp new with
  | zero => exact .refl _
  | succ n ih =>
    unfold insertLoop
    split
    · exact .refl _
    · dsimp only
      split
      · exact .refl _
      · split
        · exact .refl _
        · exact h.check (ih _ _ _)
    · exact .refl _
    · exact .refl _

theorem insertBytes_lax (h : e.Laxer e') (f : V1) (k : List U8) :
    StLe (f.insertBytes e k) (f.insertBytes e' k) := by
  unfold insertBytes
  split
  · exact .refl _
  · dsimp only
    rcases insertLoop_lax h ((f.fingerprint.fingerprint k).count.toNat + 1) f
      (f.fingerprint.fingerprint k) false with h1 | h1
    · left
      rcases h2 : insertLoop e ((f.fingerprint.fingerprint k).count.toNat + 1) f
        (f.fingerprint.fingerprint k) false with ⟨g, r⟩
      rw [h2] at h1
      dsimp only at h1
      subst h1
      rfl
    · rw [h1]
      split
      · split
        · rcases h.add (insertLoop e ((f.fingerprint.fingerprint k).count.toNat + 1) f
            (f.fingerprint.fingerprint k) false).1.count 1 with h2 | h2
          all_goals
            rename_i heq _
            rw [heq] at h2
            dsimp only at h2
            rw [h2]
          · exact .inl rfl
          · exact .refl _
        · exact .refl _
      · exact .refl _

theorem unionMerge_lax (h : e.Laxer e') (s o : V1) : s.unionMerge e' o = s.unionMerge e o := by
  unfold unionMerge updateCount
  rw [h.libm]

theorem countCommonEntries_lax (h : e.Laxer e') (s o : V1) :
    s.countCommonEntries e' o = s.countCommonEntries e o := by
  unfold countCommonEntries
  rw [h.libm]

end V1

/-! ## Version 2 -/

namespace V2

theorem sizes_lax (h : e.Laxer e') (cap : U64) (fpp : F64) (opt : OptLevel) :
    Le (sizes e cap fpp opt) (sizes e' cap fpp opt) := by
  unfold sizes
  rw [h.libm]
  cases opt with
  | none => exact .refl _
  | space => exact .refl _
  | speed => exact Le.bind (h.pow _) fun _ => Le.bind (h.pow _) fun _ => .refl _
  | best => exact Le.bind (h.pow _) fun _ => .refl _

theorem make_lax (h : e.Laxer e') (cap : U64) (fpp : F64) (opt : OptLevel) :
    Le (make e cap fpp opt) (make e' cap fpp opt) := by
  unfold make
  refine .ite (.refl _) ?_
  refine Le.bind (sizes_lax h _ _ _) fun _ => ?_
  refine Le.bind (h.room _ _) fun _ => ?_
  exact Le.bind (h.room _ _) fun _ => .refl _

theorem readCache_lax (h : e.Laxer e') (n : U64) (b : Bool) (r : Reader) :
    Le (readCache e n b r) (readCache e' n b r) := by
  unfold readCache
  refine .ite (.refl _) ?_
  rcases h.room (byteCapFromBitCap n).toNat 1 with h | h
  · rw [h]; exact .inl rfl
  · rw [h]; exact .refl _

theorem readAllBuckets_lax (h : e.Laxer e') (n : U64) (b : Bool) (r : Reader) :
    Le (readAllBuckets e n b r) (readAllBuckets e' n b r) := by
  unfold readAllBuckets
  refine .ite ?_ ?_
  · rcases h.mul n (BitVec.ofNat 64 BUCKET_SIZE) with h | h
    · rw [h]; exact .inl rfl
    · rw [h]; exact .refl _
  · rcases h.room n.toNat BUCKET_SIZE with h | h
    · rw [h]; exact .inl rfl
    · rw [h]; exact .refl _

theorem fromReaderWithFlags_lax (h : e.Laxer e') (fl : Flags) (b : Bool) (r : Reader) :
    Le (fromReaderWithFlags e fl b r) (fromReaderWithFlags e' fl b r) := by
  unfold fromReaderWithFlags
  iterate 2 refine Le.bind (.refl _) fun _ => ?_
  refine .ite (.refl _) ?_
  iterate 3 refine Le.bind (.refl _) fun _ => ?_
  refine Le.bind (readCache_lax h _ _ _) fun _ => ?_
  refine Le.bind (.refl _) fun _ => ?_
  exact Le.bind (readAllBuckets_lax h _ _ _) fun _ => .refl _

theorem fromReader_lax (h : e.Laxer e') (r : Reader) : Le (fromReader e r) (fromReader e' r) := by
  unfold fromReader fromReader'
  refine Le.bind (.refl _) fun _ => ?_
  exact .ite (.refl _) (fromReaderWithFlags_lax h _ _ _)

theorem insertLoop_lax (h : e.Laxer e') (c : Bool) (n : ℕ) (b : Bucket) (it : IndexIterator)
    (new : Bool) : StLe (insertLoop e c n b it new) (insertLoop e' c n b it new) := by
  induction n generalizing b it new with
  | zero => exact .refl _
  | succ n ih =>
    unfold insertLoop
    rw [h.wy]
    split
    · exact .refl _
    · split
      · exact .refl _
      · split
        · dsimp only
          exact h.check (ih _ _ _)
        · exact .refl _
        · exact .refl _
      · exact .refl _
      · exact .refl _
    · exact .refl _
    · exact .refl _

theorem insertFinish_lax (h : e.Laxer e') (f : V2) (x : U64) (new : Bool) :
    StLe (insertFinish e f x new) (insertFinish e' f x new) := by
  unfold insertFinish
  have h1 : Le (if new = true then addU64 e.debug f.count 1 else .ok f.count)
      (if new = true then addU64 e'.debug f.count 1 else .ok f.count) := .ite (h.add _ _) (.refl _)
  rcases h1 with h1 | h1
  · rw [h1]; exact .inl rfl
  · rw [h1]; exact .refl _

theorem insertIter_lax (h : e.Laxer e') (f : V2) (it : IndexIterator) :
    StLe (f.insertIter e it) (f.insertIter e' it) := by
  unfold insertIter
  split
  · exact .refl _
  · dsimp only
    split
    · exact .refl _
    · split
      · split
        · exact .refl _
        · rename_i bucket _
          rcases insertLoop_lax h (f.count == f.capacity)
            ((it.setCount f.nHashBuck).count.toNat + 1) bucket (it.setCount f.nHashBuck) false
            with h1 | h1
          · left
            rcases h2 : insertLoop e (f.count == f.capacity)
              ((it.setCount f.nHashBuck).count.toNat + 1) bucket (it.setCount f.nHashBuck) false
              with ⟨g, r⟩
            rw [h2] at h1
            dsimp only at h1
            subst h1
            rfl
          · rw [h1]
            split
            · exact insertFinish_lax h _ _ _
            · exact .refl _
            · exact .refl _
      · exact .refl _
      · exact .refl _

theorem insert_lax (h : e.Laxer e') (f : V2) (k : Key) : StLe (f.insert e k) (f.insert e' k) := by
  have h2 : buildIndexIter e' k = buildIndexIter e k := by unfold buildIndexIter; rw [h.wy]
  unfold insert
  rw [h2]
  exact insertIter_lax h _ _

theorem containsLoop_lax (h : e.Laxer e') (n : ℕ) (b : Bucket) (it : IndexIterator) :
    containsLoop e' n b it = containsLoop e n b it := by
  induction n generalizing b it with
  | zero => rfl
  | succ n ih =>
    unfold containsLoop
    rw [h.wy]
    simp only [ih]

theorem contains_lax (h : e.Laxer e') (f : V2) (k : Key) : f.contains e' k = f.contains e k := by
  have h2 : buildIndexIter e' k = buildIndexIter e k := by unfold buildIndexIter; rw [h.wy]
  unfold contains containsIter
  rw [h2]
  simp only [containsLoop_lax h]

theorem sizeInBytes_lax (h : e.Laxer e') (f : V2) : Le (f.sizeInBytes e) (f.sizeInBytes e') :=
  Le.bind (h.mul _ _) fun _ => h.add _ _

theorem estimate_lax (h : e.Laxer e') : bucketEstimate e' = bucketEstimate e := by
  funext n k
  unfold bucketEstimate
  rw [h.libm]

theorem updateCount_lax (h : e.Laxer e') (f : V2) : StLe (f.updateCount e) (f.updateCount e') := by
  unfold updateCount
  rw [estimate_lax h]
  rcases h.sum (f.buckets.map fun b => bucketEstimate e f.nHashBuck b.countOnes) with h | h
  · rw [h]; exact .inl rfl
  · rw [h]; exact .refl _

theorem unionMerge_lax (h : e.Laxer e') (s o : V2) : StLe (s.unionMerge e o) (s.unionMerge e' o) := by
  unfold unionMerge
  split
  · exact .refl _
  · split
    · exact updateCount_lax h _
    · exact .refl _

theorem intersectionMerge_lax (h : e.Laxer e') (s o : V2) :
    StLe (s.intersectionMerge e o) (s.intersectionMerge e' o) := by
  unfold intersectionMerge
  split
  · exact .refl _
  · split
    · exact updateCount_lax h _
    · exact .refl _

theorem countCommonEntries_lax (h : e.Laxer e') (s o : V2) :
    Le (s.countCommonEntries e o) (s.countCommonEntries e' o) := by
  unfold countCommonEntries
  rw [estimate_lax h]
  exact .ite (.refl _) (h.sum _)

end V2

/-! ## Either version -/

namespace Bloom

theorem make_lax (h : e.Laxer e') (v : U8) (cap : U64) (fpp : F64) (opt : OptLevel) :
    Le (withVersionCapacityOpt e v cap fpp opt) (withVersionCapacityOpt e' v cap fpp opt) :=
  .ite ((V1.withCapacity_lax h _ _).map _) (.ite ((V2.make_lax h _ _ _).map _) (.refl _))

theorem fromReaderAux_lax (h : e.Laxer e') (b : Bool) (r : Reader) :
    Le (fromReaderAux e b r) (fromReaderAux e' b r) := by
  unfold fromReaderAux
  split
  · exact .ite ((V1.fromReaderWithFlags_lax h _ _ _).map _)
      (.ite ((V2.fromReaderWithFlags_lax h _ _ _).map _) (.refl _))
  · exact .refl _
  · exact .refl _

theorem insertBytes_lax (h : e.Laxer e') (f : Bloom) (k : List U8) :
    StLe (f.insertBytes e k) (f.insertBytes e' k) := by
  cases f with
  | v1 f =>
    unfold insertBytes
    dsimp only
    rcases V1.insertBytes_lax h f k with h1 | h1
    · exact .inl h1
    · right; rw [h1]
  | v2 f =>
    unfold insertBytes V2.insertBytes
    dsimp only
    rcases V2.insert_lax h f (.slice k) with h1 | h1
    · exact .inl h1
    · right; rw [h1]

theorem containsBytes_lax (h : e.Laxer e') (f : Bloom) (k : List U8) :
    f.containsBytes e' k = f.containsBytes e k := by
  cases f with
  | v1 f => rfl
  | v2 f => exact V2.contains_lax h f (.slice k)

theorem fill_lax (h : e.Laxer e') (f : Bloom) (ks : List (List U8)) :
    StLe (f.fill e ks) (f.fill e' ks) := by
  induction ks generalizing f with
  | nil => exact .refl _
  | cons k ks ih =>
    unfold fill
    rcases insertBytes_lax h f k with h1 | h1
    · left
      rcases h2 : f.insertBytes e k with ⟨g, r⟩
      rw [h2] at h1
      dsimp only at h1
      subst h1
      rfl
    · rw [h1]
      split
      · exact ih _
      · exact .refl _
      · exact .refl _

theorem unionMerge_lax (h : e.Laxer e') (s o : Bloom) :
    StLe (s.unionMerge e o) (s.unionMerge e' o) := by
  unfold unionMerge
  split
  · exact .refl _
  · cases s with
    | v1 s =>
      cases o with
      | v1 o => right; dsimp only; rw [V1.unionMerge_lax h]
      | v2 o => exact .refl _
    | v2 s =>
      cases o with
      | v1 o => exact .refl _
      | v2 o =>
        dsimp only
        rcases V2.unionMerge_lax h s o with h1 | h1
        · exact .inl h1
        · right; rw [h1]
  · exact .refl _
  · exact .refl _

theorem countCommonEntries_lax (h : e.Laxer e') (s o : Bloom) :
    Le (s.countCommonEntries e o) (s.countCommonEntries e' o) := by
  unfold countCommonEntries
  split
  · exact .refl _
  · cases s with
    | v1 s =>
      cases o with
      | v1 o => right; exact V1.countCommonEntries_lax h s o
      | v2 o => exact .refl _
    | v2 s =>
      cases o with
      | v1 o => exact .refl _
      | v2 o => exact V2.countCommonEntries_lax h s o
  · exact .refl _
  · exact .refl _

theorem sizeInBytes_lax (h : e.Laxer e') (f : Bloom) : Le (f.sizeInBytes e) (f.sizeInBytes e') := by
  cases f with
  | v1 f => exact h.mul _ _
  | v2 f => exact V2.sizeInBytes_lax h f

end Bloom

/-! ## The tool -/

namespace Cli

open Bloom

/-- The first panics, or both are the same. -/
def OLe {α : Type} (a b : Option (Res α)) : Prop := a = some .panic ∨ b = a

theorem fromReader_lax (h : e.Laxer e') (r : Reader) :
    Le (Bloom.fromReader e r) (Bloom.fromReader e' r) := fromReaderAux_lax h false r

theorem createGuard_lax (h : e.Laxer e') (w : World) (f : Path) :
    Le (createGuard e w f) (createGuard e' w f) := by
  unfold createGuard
  split
  · exact .refl _
  · split
    · rename_i r _
      rcases fromReader_lax h r with h | h
      · rw [h]; exact .inl rfl
      · rw [h]; exact .refl _
    · exact .refl _
    · exact .refl _

theorem createSized_lax (h : e.Laxer e') (o : Create) (c : U64) :
    Le (createSized e o c) (createSized e' o c) :=
  Le.bind (.refl _) fun _ => make_lax h _ _ _ _

theorem createFilter_lax (h : e.Laxer e') (w : World) (o : Create) (jobs : ℕ) :
    OLe (createFilter e w o jobs) (createFilter e' w o jobs) := by
  have key : ∀ c, OLe (some (createSized e o c)) (some (createSized e' o c)) := by
    intro c
    rcases createSized_lax h o c with h | h
    · rw [h]; exact .inl rfl
    · rw [h]; exact .inr rfl
  unfold createFilter
  split
  · exact key _
  · split
    · exact key _
    · exact .inr rfl
    · exact .inr rfl
    · exact .inr rfl

/-- The first worker has panicked, or both are the same. -/
def Worker.Le (a b : Worker) : Prop := a = .done .panic ∨ b = a

theorem Worker.step_lax (h : e.Laxer e') (w : World) {a b : Worker} (hab : a.Le b) :
    (a.step e w).Le (b.step e' w) := by
  rcases hab with rfl | rfl
  · exact .inl rfl
  · rcases b with ⟨bf, _ | ⟨l, ls⟩, fs⟩ | r
    · cases fs with
      | nil => exact .inr rfl
      | cons f fs =>
        right
        unfold Worker.step
        rfl
    · cases l with
      | ok line =>
        unfold Worker.step
        dsimp only
        rcases insertBytes_lax h bf line with h1 | h1
        · left
          rcases h2 : bf.insertBytes e line with ⟨g, r⟩
          rw [h2] at h1
          dsimp only at h1
          subst h1
          rfl
        · right; rw [h1]
      | err x => exact .inr rfl
      | panic => exact .inr rfl
    · exact .inr rfl

theorem runWorkers_lax (h : e.Laxer e') (w : World) (s : Schedule) {as bs : List Worker}
    (hab : List.Forall₂ Worker.Le as bs) :
    List.Forall₂ Worker.Le (runWorkers e w s as) (runWorkers e' w s bs) := by
  induction s generalizing as bs with
  | nil => exact hab
  | cons i s ih =>
    refine ih ?_
    clear ih
    induction hab generalizing i with
    | nil => cases i <;> exact .nil
    | cons h1 h2 ih2 =>
      cases i with
      | zero => exact .cons (Worker.step_lax h w h1) h2
      | succ i => exact .cons h1 (ih2 i)

theorem joinWorkers_lax {as bs : List Worker} (hab : List.Forall₂ Worker.Le as bs) :
    OLe (joinWorkers as) (joinWorkers bs) := by
  induction hab with
  | nil => exact .inr rfl
  | @cons a b as bs h1 _ ih =>
    rcases h1 with rfl | rfl
    · exact .inl rfl
    · rcases b with _ | (g | x | _)
      · exact .inr rfl
      · unfold joinWorkers
        rcases ih with h | h
        · rw [h]; exact .inl rfl
        · rw [h]; exact .inr rfl
      · exact .inr rfl
      · exact .inl rfl

theorem mergeAll_lax (h : e.Laxer e') (out : Bloom) (bs : List Bloom) :
    Le (mergeAll e out bs) (mergeAll e' out bs) := by
  induction bs generalizing out with
  | nil => exact .refl _
  | cons b bs ih =>
    unfold mergeAll
    rcases Bloom.unionMerge_lax h out b with h1 | h1
    · left
      rcases h2 : out.unionMerge e b with ⟨g, r⟩
      rw [h2] at h1
      dsimp only at h1
      subst h1
      rfl
    · rw [h1]
      split
      · exact ih _
      · exact .refl _
      · exact .refl _

theorem reduce_lax (h : e.Laxer e') (bs : List Bloom) : Le (reduce e bs) (reduce e' bs) := by
  unfold reduce
  split
  · exact .refl _
  · exact mergeAll_lax h _ _

theorem parallelInsert_lax (h : e.Laxer e') (w : World) (s : Schedule) (bf : Bloom)
    (files : List Path) (jobs : ℕ) :
    OLe (parallelInsert e w s bf files jobs) (parallelInsert e' w s bf files jobs) := by
  unfold parallelInsert
  split
  · exact .inr rfl
  · split
    · split
      · rename_i ws _
        have hr : List.Forall₂ Worker.Le ws ws := List.forall₂_same.2 fun _ _ => .inr rfl
        rcases joinWorkers_lax (runWorkers_lax h w s hr) with h1 | h1
        · rw [h1]; exact .inl rfl
        · rw [h1]
          split
          · exact .inr rfl
          · rename_i bfs _
            rcases reduce_lax h bfs with h | h
            · rw [h]; exact .inl rfl
            · rw [h]; exact .inr rfl
          · exact .inr rfl
          · exact .inr rfl
      · exact .inr rfl
      · exact .inr rfl
    · exact .inr rfl
    · exact .inr rfl

theorem create_lax (h : e.Laxer e') (w : World) (s : Schedule) (o : Create) (jobs : ℕ) :
    (create e w s o jobs).2 = some .panic ∨ create e' w s o jobs = create e w s o jobs := by
  unfold create
  rcases createGuard_lax h w o.file with h1 | h1
  · rw [h1]; exact .inl rfl
  · rw [h1]
    split
    · rcases createFilter_lax h w o jobs with h2 | h2
      · rw [h2]; exact .inl rfl
      · rw [h2]
        split
        · rename_i b _
          rcases parallelInsert_lax h w s b o.dataset jobs with h3 | h3
          · rw [h3]; exact .inl rfl
          · rw [h3]; exact .inr rfl
        · exact .inr rfl
        · exact .inr rfl
        · exact .inr rfl
    · exact .inr rfl
    · exact .inr rfl

theorem insertLines_lax (h : e.Laxer e') (bf : Bloom) (ls : List (Res (List U8))) :
    Le (insertLines e bf ls) (insertLines e' bf ls) := by
  induction ls generalizing bf with
  | nil => exact .refl _
  | cons l ls ih =>
    unfold insertLines
    cases l with
    | ok line =>
      dsimp only
      rcases insertBytes_lax h bf line with h1 | h1
      · left
        rcases h2 : bf.insertBytes e line with ⟨g, r⟩
        rw [h2] at h1
        dsimp only at h1
        subst h1
        rfl
      · rw [h1]
        split
        · exact ih _
        · exact .refl _
        · exact .refl _
    | err x => exact .refl _
    | panic => exact .refl _

theorem insert_lax (h : e.Laxer e') (w : World) (s : Schedule) (stdin : Stdin) (o : Insert)
    (jobs : ℕ) :
    (insert e w s stdin o jobs).2 = some .panic ∨
      insert e' w s stdin o jobs = insert e w s stdin o jobs := by
  have h1 : Le (do
      let r ← w.open o.file
      let bf ← Bloom.fromReader e r
      if o.stdin || o.inputs.isEmpty then insertLines e bf stdin.lines else .ok bf) (do
      let r ← w.open o.file
      let bf ← Bloom.fromReader e' r
      if o.stdin || o.inputs.isEmpty then insertLines e' bf stdin.lines else .ok bf) :=
    Le.bind (.refl _) fun r => Le.bind (fromReader_lax h r) fun bf =>
      .ite (insertLines_lax h _ _) (.refl _)
  unfold insert
  rcases h1 with h1 | h1
  · rw [h1]; exact .inl rfl
  · rw [h1]
    split
    · rename_i bf _
      rcases parallelInsert_lax h w s bf o.inputs jobs with h3 | h3
      · rw [h3]; exact .inl rfl
      · rw [h3]; exact .inr rfl
    · exact .inr rfl
    · exact .inr rfl

theorem checkStdinTo_lax (h : e.Laxer e') (bf : Bloom) (o : Check) (ls : List (Res (List U8)))
    (s : Stdout (List U8)) : checkStdinTo e' bf o ls s = checkStdinTo e bf o ls s := by
  induction ls generalizing s with
  | nil => rfl
  | cons l ls ih =>
    unfold checkStdinTo
    simp only [containsBytes_lax h, ih]

theorem stepTo_lax (h : e.Laxer e') (w : World) (bf : Bloom) (o : Check) (c : Checker)
    (s : Stdout (List U8)) : c.stepTo e' w bf o s = c.stepTo e w bf o s := by
  rcases c with ⟨_ | ⟨l, ls⟩, fs⟩ | r
  · cases fs <;> rfl
  · unfold Checker.stepTo
    simp only [containsBytes_lax h]
  · rfl

theorem runCheckersTo_lax (h : e.Laxer e') (w : World) (bf : Bloom) (o : Check) (s : Schedule)
    (ts : List Checker) (out : Stdout (List U8)) :
    runCheckersTo e' w bf o s ts out = runCheckersTo e w bf o s ts out := by
  induction s generalizing ts out with
  | nil => rfl
  | cons i s ih =>
    unfold runCheckersTo
    simp only [stepTo_lax h, ih]

theorem checkTo_lax (h : e.Laxer e') (w : World) (s : Schedule) (stdin : Stdin) (o : Check)
    (jobs : ℕ) (out : Stdout (List U8)) :
    (checkTo e w s stdin o jobs out).2 = some .panic ∨
      checkTo e' w s stdin o jobs out = checkTo e w s stdin o jobs out := by
  have h1 : Le (do
      let r ← w.open o.file
      Bloom.fromReader e r) (do
      let r ← w.open o.file
      Bloom.fromReader e' r) :=
    Le.bind (.refl _) fun r => fromReader_lax h r
  unfold checkTo checkFilesTo
  rcases h1 with h1 | h1
  · rw [h1]; exact .inl rfl
  · right
    rw [h1]
    simp only [checkStdinTo_lax h, runCheckersTo_lax h]

/-- The first panics, or both are the same. -/
def Log.Le {α : Type} (a b : Log α) : Prop := a.res = .panic ∨ b = a

theorem Log.Le.refl {α : Type} (a : Log α) : a.Le a := .inr rfl

theorem Log.Le.bind {α β : Type} {x y : Log α} {f g : α → Log β} (h : x.Le y)
    (hf : ∀ a, (f a).Le (g a)) : Log.Le (x >>= f) (y >>= g) := by
  rcases h with h | rfl
  · left
    rcases x with ⟨out, r⟩
    dsimp only at h
    subst h
    rfl
  · rcases y with ⟨out, r | r | _⟩
    · rcases hf r with h | h
      · exact .inl h
      · right
        show (⟨out ++ (g r).out, (g r).res⟩ : Log β) = ⟨out ++ (f r).out, (f r).res⟩
        rw [h]
    · exact .inr rfl
    · exact .inl rfl

theorem Log.Le.lift {α : Type} {x y : Res α} (h : x.Le y) : (Log.lift x).Le (Log.lift y) := by
  rcases h with h | h
  · exact .inl h
  · right; rw [h]

theorem printAll_lax {α : Type} (s : Stdout α) (ls : List α) :
    (s.printAll ls).2 = .ok () ∨ (s.printAll ls).2 = .panic := by
  induction ls generalizing s with
  | nil => exact .inl rfl
  | cons l ls ih =>
    rcases s with ⟨old, _ | _ | n⟩
    · exact ih _
    · exact .inr rfl
    · exact ih _

theorem Log.Le.to {x y : Log Unit} (h : x.Le y) (s : Stdout String) :
    (x.to s).2 = .panic ∨ y.to s = x.to s := by
  rcases h with h | h
  · left
    unfold Log.to
    rcases h1 : s.printAll x.out with ⟨s', r⟩
    have := printAll_lax s x.out
    rw [h1] at this
    rcases this with h2 | h2
    all_goals
      dsimp only at h2
      subst h2
    · exact h
    · rfl
  · right; rw [h]

theorem showBfPropertiesLog_lax (h : e.Laxer e') (fmt : Fmt) (b : Bloom) :
    (showBfPropertiesLog fmt e b).Le (showBfPropertiesLog fmt e' b) := by
  unfold showBfPropertiesLog
  iterate 5 refine Log.Le.bind (.refl _) fun _ => ?_
  exact Log.Le.bind (.lift (Bloom.sizeInBytes_lax h b)) fun _ => .refl _

theorem showLog_lax (h : e.Laxer e') (fmt : Fmt) (w : World) (file : Path) :
    (showLog fmt e w file).Le (showLog fmt e' w file) := by
  unfold showLog
  refine Log.Le.bind (.refl _) fun r => ?_
  refine Log.Le.bind (.lift (fromReaderAux_lax h true r)) fun _ => ?_
  refine Log.Le.bind (.refl _) fun _ => ?_
  exact showBfPropertiesLog_lax h fmt _

theorem benchStats_lax (h : e.Laxer e') (b : Bloom) (ls : List (Bool × List U8)) (s : Stats) :
    benchStats e' b ls s = benchStats e b ls s := by
  induction ls generalizing s with
  | nil => rfl
  | cons l ls ih =>
    unfold benchStats
    simp only [containsBytes_lax h, ih]

theorem benchAll_lax (h : e.Laxer e') (b : Bloom) (es : List (List U8)) :
    benchAll e' b es = benchAll e b es := by
  induction es with
  | nil => rfl
  | cons l ls ih =>
    unfold benchAll
    simp only [containsBytes_lax h, ih]

theorem benchBloom_lax (h : e.Laxer e') (w : World) (o : Benchmark) (es : List (List U8)) :
    Le (benchBloom e w o es) (benchBloom e' w o es) := by
  unfold benchBloom
  split
  · refine Le.bind (.refl _) fun r => Le.bind (fromReader_lax h r) fun b => ?_
    rw [benchAll_lax h]
    exact .refl _
  · unfold benchFilter
    refine Le.bind (.refl _) fun opt => Le.bind (make_lax h _ _ _ _) fun b => ?_
    rcases Bloom.fill_lax h b es with h1 | h1
    · left
      rcases h2 : b.fill e es with ⟨g, r⟩
      rw [h2] at h1
      dsimp only at h1
      subst h1
      rfl
    · rw [h1]; exact .refl _

theorem benchRounds_lax (h : e.Laxer e') (fmt : Fmt) (mc : Measure) (rng : BenchRng) (b : Bloom)
    (es : List (List U8)) (n runs : ℕ) (ms : List ℕ) :
    benchRounds fmt e' mc rng b es n runs ms = benchRounds fmt e mc rng b es n runs ms := by
  induction ms with
  | nil => rfl
  | cons m ms ih =>
    unfold benchRounds benchRound
    simp only [benchStats_lax h, ih]

theorem benchLog_lax (h : e.Laxer e') (fmt : Fmt) (w : World) (hash : List U8 → U64) (mc : Measure)
    (rng : BenchRng) (stdin : Stdin) (o : Benchmark) :
    (benchLog fmt e w hash mc rng stdin o).Le (benchLog fmt e' w hash mc rng stdin o) := by
  have hl : Le (benchLimit e.debug o.sizeMb) (benchLimit e'.debug o.sizeMb) :=
    .ite (Le.bind (h.mul _ _) fun _ => .refl _) (Le.bind (h.mul _ _) fun _ => .refl _)
  unfold benchLog
  refine Log.Le.bind (.lift hl) fun limit => ?_
  iterate 3 refine Log.Le.bind (.refl _) fun _ => ?_
  refine Log.Le.bind (.lift (benchBloom_lax h w o _)) fun b => ?_
  refine Log.Le.bind (showBfPropertiesLog_lax h fmt b) fun _ => ?_
  iterate 4 refine Log.Le.bind (.refl _) fun _ => ?_
  rw [benchRounds_lax h]
  exact .refl _

theorem main_lax (h : e.Laxer e') (t : Libs) (w : World) (r : Run) :
    (main t e w r).2.2 = some .panic ∨ main t e' w r = main t e w r := by
  unfold main
  cases r.command with
  | create o =>
    dsimp only
    rcases create_lax h w r.sched o r.jobs with h | h
    · exact .inl h
    · right; rw [h]
  | insert o =>
    dsimp only
    rcases insert_lax h w r.sched r.stdin o r.jobs with h | h
    · exact .inl h
    · right; rw [h]
  | check o =>
    dsimp only
    rcases checkTo_lax h w r.sched r.stdin o r.jobs ⟨[], r.stdout⟩ with h | h
    · exact .inl h
    · right; rw [h]
  | bench o =>
    dsimp only
    rcases (benchLog_lax h t.fmt w t.hash r.measure r.rng r.stdin o).to ⟨[], r.stdout⟩ with h | h
    · exact .inl (congrArg some h)
    · right; rw [h]
  | «show» file =>
    dsimp only
    rcases (showLog_lax h t.fmt w file).to ⟨[], r.stdout⟩ with h | h
    · exact .inl (congrArg some h)
    · right; rw [h]

end Cli

/-! ## Programs -/

theorem put_lax {α : Type} (σ : ℕ → α) (r : ℕ) {x y : Res α} (h : x.Le y) :
    (Abs.put σ r x).2 = .panic ∨ Abs.put σ r y = Abs.put σ r x := by
  rcases h with h | h
  · subst h; exact .inl rfl
  · rw [h]; exact .inr rfl

theorem set_lax {α β : Type} (σ : ℕ → α) (r : ℕ) (f : β → Abs.Answer) {x y : α × Res β}
    (h : StLe x y) : x.2.answer f = .panic ∨
      (Abs.set σ r y.1, y.2.answer f) = (Abs.set σ r x.1, x.2.answer f) := by
  rcases h with h | h
  · rw [h]; exact .inl rfl
  · rw [h]; exact .inr rfl

theorem answer_lax {α β : Type} (σ : ℕ → α) (f : β → Abs.Answer) {x y : Res β} (h : x.Le y) :
    x.answer f = .panic ∨ (σ, y.answer f) = (σ, x.answer f) := by
  rcases h with h | h
  · rw [h]; exact .inl rfl
  · rw [h]; exact .inr rfl

theorem Bloom.step_lax (h : e.Laxer e') (σ : ℕ → Bloom) (o : Abs.BOp) :
    (Bloom.step e σ o).2 = .panic ∨ Bloom.step e' σ o = Bloom.step e σ o := by
  cases o with
  | make r v cap fpp opt => exact put_lax σ r (make_lax h v cap fpp opt)
  | load r bs => exact put_lax σ r (fromReaderAux_lax h false _)
  | insert r k => exact set_lax σ r _ (insertBytes_lax h _ _)
  | fill r ks => exact set_lax σ r _ (fill_lax h _ _)
  | contains r k => right; unfold Bloom.step; dsimp only; rw [containsBytes_lax h]
  | union r s => exact set_lax σ r _ (unionMerge_lax h _ _)
  | common r s => exact answer_lax σ _ (countCommonEntries_lax h _ _)
  | size r => exact answer_lax σ _ (sizeInBytes_lax h _)
  | reload r s => exact put_lax σ r (fromReaderAux_lax h false _)
  | _ => exact .inr rfl

theorem V2.step_lax (h : e.Laxer e') (σ : ℕ → V2) (o : Abs.Op Key) :
    (V2.step e σ o).2 = .panic ∨ V2.step e' σ o = V2.step e σ o := by
  cases o with
  | make r cap fpp opt => exact put_lax σ r (make_lax h cap fpp opt)
  | insert r k => exact set_lax σ r _ (insert_lax h _ _)
  | contains r k => right; unfold V2.step; dsimp only; rw [contains_lax h]
  | union r s => exact set_lax σ r _ (unionMerge_lax h _ _)
  | inter r s => exact set_lax σ r _ (intersectionMerge_lax h _ _)
  | common r s => exact answer_lax σ _ (countCommonEntries_lax h _ _)
  | reload r => exact put_lax σ r (fromReader_lax h _)
  | _ => exact .inr rfl

theorem V1.step_lax (h : e.Laxer e') (σ : ℕ → V1) (o : Abs.Op (List U8)) :
    (V1.step e σ o).2 = .panic ∨ V1.step e' σ o = V1.step e σ o := by
  cases o with
  | make r cap fpp opt => exact put_lax σ r (withCapacity_lax h cap fpp)
  | insert r k => exact set_lax σ r _ (insertBytes_lax h _ _)
  | union r s => right; unfold V1.step; dsimp only; rw [unionMerge_lax h]
  | common r s => right; unfold V1.step; dsimp only; rw [countCommonEntries_lax h]
  | reload r => exact put_lax σ r (fromReader_lax h _)
  | _ => exact .inr rfl

theorem run_lax {α Op : Type} {st st' : (ℕ → α) → Op → (ℕ → α) × Abs.Answer}
    (h : ∀ σ o, (st σ o).2 = .panic ∨ st' σ o = st σ o) (σ : ℕ → α) (p : List Op)
    (hp : .panic ∉ (Abs.run st σ p).2) : Abs.run st' σ p = Abs.run st σ p := by
  induction p generalizing σ with
  | nil => rfl
  | cons o p ih =>
    simp only [Abs.run, List.mem_cons, not_or] at hp ⊢
    have h1 := (h σ o).resolve_left fun x => hp.1 x.symm
    rw [h1, ih _ hp.2]

/-! ## Python programs -/

namespace Py

theorem returnsObj_lax (h : Heap Bloom) {x y : PyRes Bloom} (hxy : x = .panic ∨ y = x) :
    (returnsObj h x).2 = .raised .panicException ∨ returnsObj h y = returnsObj h x := by
  rcases hxy with rfl | rfl
  · exact .inl rfl
  · exact .inr rfl

theorem ofRes_lax {α : Type} {x y : Res α} (h : x.Le y) :
    PyRes.ofRes x = .panic ∨ PyRes.ofRes y = PyRes.ofRes x := by
  rcases h with rfl | rfl
  · exact .inl rfl
  · exact .inr rfl

theorem out_lax {α : Type} (h : Heap Bloom) (f : α → Out) {x y : PyRes α} (hxy : x = .panic ∨ y = x) :
    (h, x.out f).2 = .raised .panicException ∨ (h, y.out f) = (h, x.out f) := by
  rcases hxy with rfl | rfl
  · exact .inl rfl
  · exact .inr rfl

theorem changes_lax {α : Type} (h : Heap Bloom) (i : ℕ) (f : α → Out) {x y : Bloom × Res α}
    (hxy : StLe x y) :
    (changes h i f (x.1, PyRes.ofRes x.2)).2 = .raised .panicException ∨
      changes h i f (y.1, PyRes.ofRes y.2) = changes h i f (x.1, PyRes.ofRes x.2) := by
  rcases hxy with h1 | h1
  · left; rw [h1]; rfl
  · right; rw [h1]

theorem withArgs_lax {α β : Type} (h : Heap α) (args : Except Exc β) {f g : β → Heap α × Out}
    (hfg : ∀ b, (f b).2 = .raised .panicException ∨ g b = f b) :
    (withArgs h args f).2 = .raised .panicException ∨ withArgs h args g = withArgs h args f := by
  cases args with
  | ok b => exact hfg b
  | error x => exact .inr rfl

theorem onObj_lax {α : Type} (h : Heap α) (i : ℕ) {f g : α → Heap α × Out}
    (hfg : ∀ b, (f b).2 = .raised .panicException ∨ g b = f b) :
    (onObj h i f).2 = .raised .panicException ∨ onObj h i g = onObj h i f := by
  unfold onObj
  split
  · exact hfg _
  · exact .inr rfl

theorem call_lax (h : e.Laxer e') (p : Heap Bloom) (c : PyCall) :
    (p.call e c).2 = .raised .panicException ∨ p.call e' c = p.call e c := by
  cases c with
  | new args =>
    refine withArgs_lax _ _ fun ⟨c, q⟩ => returnsObj_lax p ?_
    exact ofRes_lax ((V2.make_lax h _ _ _).map _)
  | withVersion args =>
    refine withArgs_lax _ _ fun ⟨v, c, q⟩ => returnsObj_lax p ?_
    exact ofRes_lax (Bloom.make_lax h _ _ _ _)
  | withParams args =>
    refine withArgs_lax _ _ fun ⟨v, c, q, o⟩ => returnsObj_lax p ?_
    unfold Py.withParams
    split
    · exact ofRes_lax (Bloom.make_lax h _ _ _ _)
    · exact .inr rfl
    · exact .inr rfl
  | loads args =>
    exact withArgs_lax _ _ fun _ =>
      returnsObj_lax p (ofRes_lax (Bloom.fromReaderAux_lax h false _))
  | load path =>
    refine returnsObj_lax p ?_
    unfold Py.load
    split
    · exact ofRes_lax (Bloom.fromReaderAux_lax h false _)
    · exact .inr rfl
    · exact .inr rfl
  | insertBytes i args =>
    exact onObj_lax _ _ fun f => withArgs_lax _ _ fun k =>
      changes_lax p i _ (Bloom.insertBytes_lax h f k)
  | insertStr i args =>
    exact onObj_lax _ _ fun f => withArgs_lax _ _ fun k =>
      changes_lax p i _ (Bloom.insertBytes_lax h f _)
  | containsBytes i args =>
    right
    unfold Heap.call Py.containsBytes
    simp only [Bloom.containsBytes_lax h]
  | containsStr i args =>
    right
    unfold Heap.call Py.containsStr
    simp only [Bloom.containsBytes_lax h]
  | unionMerge i args =>
    exact onObj_lax _ _ fun f => withArgs_lax _ _ fun o =>
      changes_lax p i _ (Bloom.unionMerge_lax h f o)
  | countCommonEntries i args =>
    exact onObj_lax _ _ fun f => withArgs_lax _ _ fun o =>
      out_lax p _ (ofRes_lax (Bloom.countCommonEntries_lax h f o))
  | _ => exact .inr rfl

end Py

end Poppy

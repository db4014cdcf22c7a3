import Verif.LevelsSpec
import Verif.Lemmas.Grow
import Verif.Lemmas.CacheHashesV2
import Verif.Lemmas.V1Ops

/-!
# Lemmas about the optimization levels
-/

namespace Poppy.V2

theorem insertFinish_flags (env : Env) (x : Flags) (f : V2) (h : U64) (new : Bool) :
    insertFinish env { f with flags := x } h new =
      ({ (insertFinish env f h new).1 with flags := x }, (insertFinish env f h new).2) := by
  unfold insertFinish
  dsimp only
  rcases (if new then addU64 env.debug f.count 1 else .ok f.count) with c | e | _
  · dsimp only
    split
    · rcases f.indexCache.setNthBit _ with ⟨_, _ | _ | _⟩ <;> rfl
    · rfl
  · rfl
  · rfl

theorem insertIter_flags (env : Env) (x : Flags) (f : V2) (it : IndexIterator) :
    insertIter env { f with flags := x } it =
      ({ (insertIter env f it).1 with flags := x }, (insertIter env f it).2) := by
  unfold insertIter
  split
  · rfl
  · dsimp only
    split
    · rfl
    · have h : ∀ y, ibucket { f with flags := x } y = ibucket f y := fun _ => rfl
      rw [h]
      rcases ibucket f _ with ib | _ | _
      · dsimp only
        split
        · rfl
        · split
          · rename_i bucket' new _
            exact insertFinish_flags env x { f with buckets := f.buckets.set ib.toNat bucket' } _ _
          · rfl
          · rfl
      · rfl
      · rfl

theorem insertBytes_flags (env : Env) (x : Flags) (f : V2) (k : List U8) :
    insertBytes env { f with flags := x } k =
      ({ (insertBytes env f k).1 with flags := x }, (insertBytes env f k).2) :=
  insertIter_flags env x f (buildIndexIter env (.slice k))

theorem insertBytes_keeps (env : Env) (f : V2) (k : List U8) :
    (insertBytes env f k).1.flags = f.flags := by
  have h := insertBytes_flags env f.flags f k
  rw [show ({ f with flags := f.flags } : V2) = f from rfl] at h
  exact congrArg (fun p => p.1.flags) h

theorem insertAll_flags (env : Env) (x : Flags) (ks : List (List U8)) (f : V2) :
    ∃ h : V2, Spec.insertAll env (.v2 f) ks = (.v2 h, (Spec.insertAll env (.v2 f) ks).2) ∧
      h.flags = f.flags ∧
      Spec.insertAll env (.v2 { f with flags := x }) ks =
        (.v2 { h with flags := x }, (Spec.insertAll env (.v2 f) ks).2) := by
  induction ks generalizing f with
  | nil => exact ⟨f, rfl, rfl, rfl⟩
  | cons k ks ih =>
    have e : Bloom.insertBytes env (.v2 f) k = (.v2 (f.insertBytes env k).1, (f.insertBytes env k).2) :=
      rfl
    have e' : Bloom.insertBytes env (.v2 { f with flags := x }) k =
        (.v2 { (f.insertBytes env k).1 with flags := x }, (f.insertBytes env k).2) := by
      simp only [Bloom.insertBytes, insertBytes_flags]
    obtain ⟨h, h1, h2, h3⟩ := ih (f.insertBytes env k).1
    refine ⟨h, ?_, h2.trans (insertBytes_keeps env f k), ?_⟩
    · simp only [Spec.insertAll, e]
      rw [h1]
    · simp only [Spec.insertAll, e, e']
      rw [h3]

/-- Filters that differ in the flags only. -/
theorem sameBut (env : Env) (f : V2) (l : OptLevel) (hf : f.flags.version = 2) :
    Spec.SameBut env l.toU8 (.v2 f) (.v2 { f with flags := (Flags.new 2).withOpt l }) where
  file := by
    rw [Bloom.file_eq, Bloom.file_eq]
    show ser _ = (ser f).set 1 _
    simp only [ser, chunks, Flags.toBytes, Flags.new, Flags.withOpt, hf, List.flatten_cons,
      List.cons_append, List.set_cons_succ, List.set_cons_zero]
  contains _ := rfl
  count := rfl
  full := rfl
  capacity := rfl
  fpp := rfl
  size := rfl

theorem make_space (env : Env) (cap : U64) (fpp : F64) :
    make env cap fpp .space =
      (make env cap fpp .none).map fun f => { f with flags := (Flags.new 2).withOpt .space } := by
  unfold make
  split
  · rfl
  · simp only [sizes, Res.bind_ok]
    rcases env.alloc (byteCapFromBitCap 0).toNat 1 with _ | _ | _
    · dsimp only [bind, Res.bind]
      rcases env.alloc _ BUCKET_SIZE with _ | _ | _ <;> rfl
    · rfl
    · rfl

end Poppy.V2

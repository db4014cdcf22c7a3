import Verif.FillSpec
import Verif.Lemmas.Jobs

/-! Lemmas about which lines went into the filter of a file. -/

namespace Poppy

open Spec
open Abs (Answer)

/-- `g` is `f` with the bits of these entries, whatever the count. -/
structure V1.Given (f : V1) (es : List (List U8)) (g : V1) : Prop where
  capacity : g.capacity = f.capacity
  fpp : g.fpp = f.fpp
  nHash : g.nHash = f.nHash
  bitSize : g.bitSize = f.bitSize
  data : g.data = f.data
  len : g.bitset.length = f.bitset.length
  bits : ∀ i, bitAt g.bitset i = true ↔ bitAt f.bitset i = true ∨
    ∃ k ∈ es, ∃ n < f.nHash.toNat, i = dcsoProbe k f.bitSize.toNat n

/-- `g` is `f` with the bits of these entries, whatever the count. -/
structure V2.Given (env : Env) (f : V2) (es : List (List U8)) (g : V2) : Prop where
  capacity : g.capacity = f.capacity
  fpp : g.fpp = f.fpp
  opt : g.flags.opt = f.flags.opt
  nHash : g.nHashBuck = f.nHashBuck
  data : g.data = f.data
  blen : g.buckets.length = f.buckets.length
  clen : g.indexCache.asSlice.length = f.indexCache.asSlice.length
  bits : ∀ b i, g.bucketBit b i = true ↔ f.bucketBit b i = true ∨
    ∃ k ∈ es, b = f.keyBucket env (.slice k) ∧
      ∃ n < f.nHashBuck.toNat, i = V2.keyProbe env (.slice k) n
  cache : ∀ i, bitAt g.indexCache.asSlice i = true ↔ bitAt f.indexCache.asSlice i = true ∨
    f.indexCache.asSlice ≠ [] ∧ ∃ k ∈ es, i = f.keyCache env (.slice k)

namespace Bloom

/-- `g` is `f` with the bits of these entries, whatever the count. -/
def Given (env : Env) : Bloom → List (List U8) → Bloom → Prop
  | .v1 f, es, .v1 g => f.Given es g
  | .v2 f, es, .v2 g => f.Given env es g
  | _, _, _ => False

namespace Given

theorem refl (env : Env) (f : Bloom) : Given env f [] f := by
  cases f with
  | v1 f => exact ⟨rfl, rfl, rfl, rfl, rfl, rfl, by simp⟩
  | v2 f => exact ⟨rfl, rfl, rfl, rfl, rfl, rfl, rfl, by simp, by simp⟩

theorem trans {env : Env} {f g h : Bloom} {es es' : List (List U8)} (a : Given env f es g)
    (b : Given env g es' h) : Given env f (es ++ es') h := by
  cases f with
  | v1 f =>
    cases g with
    | v2 g => exact a.elim
    | v1 g =>
    cases h with
    | v2 h => exact b.elim
    | v1 h =>
      refine ⟨b.1.trans a.1, b.2.trans a.2, b.3.trans a.3, b.4.trans a.4, b.5.trans a.5,
        b.6.trans a.6, fun i => ?_⟩
      rw [b.bits, a.bits, a.nHash, a.bitSize]
      simp only [List.mem_append, or_and_right, exists_or, or_assoc]
  | v2 f =>
    cases g with
    | v1 g => exact a.elim
    | v2 g =>
    cases h with
    | v1 h => exact b.elim
    | v2 h =>
      have e : g.indexCache.asSlice ≠ [] ↔ f.indexCache.asSlice ≠ [] := by
        rw [← List.length_pos_iff, a.clen, List.length_pos_iff]
      refine ⟨b.1.trans a.1, b.2.trans a.2, b.3.trans a.3, b.4.trans a.4, b.5.trans a.5,
        b.6.trans a.6, b.7.trans a.7, fun i j => ?_, fun i => ?_⟩
      · rw [b.bits, a.bits, a.nHash]
        simp only [V2.keyBucket, a.blen, List.mem_append, or_and_right, exists_or, or_assoc]
      · rw [b.cache, a.cache, e]
        simp only [V2.keyCache, a.clen, List.mem_append, or_and_right, exists_or, or_assoc, and_or_left]

theorem parallel {env : Env} (hs : env.Small) {w : Cli.World} {s : Cli.Schedule} {f g : Bloom}
    (hf : f.Reach env) {files : List Cli.Path} {jobs : ℕ} {es : List (List U8)}
    (he : Cli.linesOf w files = es.map Res.ok)
    (h : Cli.parallelInsert env w s f files jobs = some (.ok g)) : Given env f es g := by
  have inj : ∀ {a b : List (List U8)}, a.map Res.ok = b.map Res.ok → a = b := fun {a b} e =>
    (List.map_injective_iff.2 (fun a b h => Res.ok.inj h)) e
  cases f with
  | v1 f =>
    obtain ⟨es', g, a0, rfl, a1, a2, a3, a4, a5, a6, a7, a8⟩ := C54_v1_bits hs hf h
    obtain rfl := inj (a0.2.symm.trans he)
    exact ⟨a1, a2, a4, a5, a6, a7, a8⟩
  | v2 f =>
    obtain ⟨es', g, a0, rfl, a1, a2, a3, a4, a5, a6, a7, a8, a9⟩ := C54_v2_bits hf h
    obtain rfl := inj (a0.2.symm.trans he)
    exact ⟨a1, a2, by rw [a3], a4, a5, a6, a7, a8, a9⟩

theorem inserts {env : Env} (hs : env.Small) {f : Bloom} (hf : f.Reach env) {es : List (List U8)}
    (h : f.AllOk env es) : Given env f es (f.inserts env es) := by
  cases f with
  | v1 f =>
    rw [Bloom.inserts_v1]
    have s := V1.inserts_shape env f es
    exact ⟨s.capacity, s.fpp, s.nHash, s.bitSize, s.data, s.len,
      ((Bloom.allOk_v1 env f es).1 h).bits (V1.Reach.wf hf hs)⟩
  | v2 f =>
    rw [Bloom.inserts_v2]
    have s := V2.inserts_shape env f (es.map Key.slice)
    have b := ((Bloom.allOk_v2 env f es).1 h).bits (V2.Reach.wf hf)
    refine ⟨s.capacity, s.fpp, by rw [s.flags], s.nHash, s.data, s.blen, s.clen, fun i j => ?_, fun i => ?_⟩
    · simp only [V2.bucketBit_eq, V2.keyBucket_eq, V2.keyProbe_eq]
      rw [b.1]
      simp
    · rw [b.2]
      by_cases hc : f.indexCache.asSlice = []
      · simp [hc]
      · simp [V2.keyCache_eq env (V2.Reach.wf hf) hc]

theorem canon (env : Env) (f : Bloom) : Given env f [] f.canon := by
  cases f with
  | v1 f => exact ⟨rfl, rfl, rfl, rfl, rfl, rfl, by simp [V1.canon]⟩
  | v2 f => exact ⟨rfl, rfl, rfl, rfl, rfl, rfl, rfl, by simp [V2.canon, V2.bucketBit],
      by simp [V2.canon]⟩

/-- The same entries, in any order and any number of times. -/
theorem same {env : Env} {f g g' : Bloom} (hg : g.Reach env) (hg' : g'.Reach env)
    {es es' : List (List U8)} (he : ∀ k, k ∈ es ↔ k ∈ es') (a : Given env f es g)
    (b : Given env f es' g') : SameButCount g.file g'.file ∧
      (env.Small → ∀ k, g.containsBytes env k = g'.containsBytes env k) := by
  have key : ∀ {q : List U8 → Prop}, (∃ k ∈ es, q k) ↔ ∃ k ∈ es', q k := by
    intro q
    simp only [he]
  rw [← Bloom.view_file hg, ← Bloom.view_file hg']
  have ans : ∀ {x y : Res Bool}, x.answer Answer.bool = y.answer Answer.bool → x = y := by
    intro x y h
    cases x <;> cases y <;> simp_all [Res.answer]
  cases f with
  | v1 f =>
    cases g with
    | v2 g => exact a.elim
    | v1 g =>
    cases g' with
    | v2 g' => exact b.elim
    | v1 g' =>
      have hb : bitAt g'.bitset = bitAt g.bitset := by
        funext i
        rw [Bool.eq_iff_iff, a.bits, b.bits, key]
      have e : g'.view = { g.view with flags := g'.flags, count := g'.count.toNat } := by
        simp only [V1.view, a.1, a.2, a.3, a.4, a.5, a.6, b.1, b.2, b.3, b.4, b.5, b.6, hb]
      constructor
      · simp only [Bloom.view, Abs.F.file, e, Abs.F1.file, v1Bytes]
        have := sameButCount_of (a := [1, 0, 0, 0, 0, 0, 0, 0] ++ le 8 g.view.cap
          ++ le 8 g.view.fpp.toNat ++ le 8 g.view.hashes ++ le 8 g.view.size)
          (b := ((Abs.words g.view.words g.view.bits).map (le 8)).flatten ++ g.view.data)
          (n := g.view.count) (n' := g'.count.toNat) (by simp [le, countAt]) (by simp)
        simpa only [List.append_assoc] using this
      · intro hs k
        apply ans
        rw [← Bloom.view_contains hs hg, ← Bloom.view_contains hs hg']
        simp only [Bloom.view, Abs.F.contains, e]
        rfl
  | v2 f =>
    cases g with
    | v1 g => exact a.elim
    | v2 g =>
    cases g' with
    | v1 g' => exact b.elim
    | v2 g' =>
      have hb : g'.bucketBit = g.bucketBit := by
        funext i j
        rw [Bool.eq_iff_iff, a.bits, b.bits, key]
      have hc : bitAt g'.indexCache.asSlice = bitAt g.indexCache.asSlice := by
        funext i
        rw [Bool.eq_iff_iff, a.cache, b.cache, key]
      have e : g'.view = { g.view with flags := g'.flags, count := g'.count.toNat } := by
        simp only [V2.view, a.1, a.2, a.4, a.5, a.6, a.7, b.1, b.2, b.4, b.5, b.6, b.7, hb, hc]
      have ho : g'.flags.opt = g.view.flags.opt := b.3.trans a.3.symm
      constructor
      · simp only [Bloom.view, Abs.F.file, e, Abs.F2.file, v2Bytes, List.append_assoc, ho]
        have := fun b => sameButCount_of (a := [2, BitVec.ofNat 8 (Abs.level g.view.flags.opt), 0, 0, 0,
          0, 0, 0] ++ le 8 g.view.cap ++ le 8 g.view.fpp.toNat ++ le 8 g.view.hashes) (b := b)
          (n := g.view.count) (n' := g'.count.toNat) (by simp [le, countAt]) (by simp)
        simp only [List.append_assoc] at this
        exact this _
      · intro hs k
        apply ans
        rw [← Bloom.view_contains hs hg, ← Bloom.view_contains hs hg']
        simp only [Bloom.view, Abs.F.contains, e]
        rfl

end Given

theorem reload_canon {env : Env} (hs : env.Small) {f : Bloom} (hf : f.Reach env) :
    fromReader env (Reader.ofBytes f.file) = .ok f.canon := by
  rw [file_eq]
  refine fromReader_ser ?_ hs
  cases f with
  | v1 f => exact ⟨(V1.Reach.inv hf).1, (V1.Reach.inv hf).2.1⟩
  | v2 f => exact ⟨(V2.Reach.inv hf).1, (V2.Reach.inv hf).2.1⟩

end Bloom

namespace Cli

/-- A run of `insert` gives the filter of the file the lines. -/
theorem InsertRun.given {t : Libs} {env : Env} (hs : env.Small) {file : Path} {w w' : World}
    {ls : List (List U8)} (h : InsertRun t env file w ls w') {bs : List U8}
    (hb : w.fs file = some bs) :
    ∃ f g, Bloom.fromReader env (Reader.ofBytes bs) = .ok f ∧ g.Reach env ∧
      w'.fs file = some g.file ∧ f.Given env ls g := by
  obtain ⟨hd, r, o, p, hr, rfl, h, hl⟩ := h
  unfold main at h
  simp only [hr, Prod.mk.injEq] at h
  obtain ⟨rfl, -, x⟩ := h
  rcases insert_cases env w r.sched r.stdin o r.jobs with ⟨-, n⟩ | ⟨bs', b, b', bf, a0, a1, a2, a3, -, a4⟩
  · exact absurd x n
  have e := open_ok a0
  rw [hb] at e
  obtain rfl := Option.some.inj e
  have hb' := Bloom.Reach.load a1
  have inj : ∀ {a b : List (List U8)}, a.map Res.ok = b.map Res.ok → a = b := fun {a b} e =>
    (List.map_injective_iff.2 (fun a b h => Res.ok.inj h)) e
  obtain ⟨ea, e1, e2, e3⟩ : ∃ ea : List (List U8),
      (if o.stdin || o.inputs.isEmpty then r.stdin.lines else []) = ea.map Res.ok ∧ b'.Reach env ∧
      b.Given env ea b' := by
    by_cases hu : (o.stdin || o.inputs.isEmpty) = true
    · rw [if_pos hu] at a2 ⊢
      obtain ⟨es, h1, h2, rfl⟩ := insertLines_ok a2
      exact ⟨es, h1, hb'.inserts es, .inserts hs hb' h2⟩
    · rw [if_neg hu] at a2 ⊢
      obtain rfl := Res.ok.inj a2
      exact ⟨[], rfl, hb', .refl env b⟩
  obtain ⟨hop, ess, _, _, e4, _⟩ := insertFiles_ok (parallelInsert_some a3).symm
  obtain rfl : ls = ea ++ ess.flatten := by
    apply inj
    rw [← hl, inputLines, e1, e4, List.map_append]
  refine ⟨b, bf, a1, insertFiles_reach e2 (parallelInsert_some a3).symm, ?_,
    e3.trans (.parallel hs e2 e4 a3)⟩
  rw [a4, written_out, hd]
  simp [World.written]

/-- A run of `create` gives a new filter the lines. -/
theorem CreateRun.given {t : Libs} {env : Env} (hs : env.Small) {file : Path} {v : U8} {cap : U64}
    {fpp : F64} {opt : U8} {w w' : World} {ls : List (List U8)}
    (h : CreateRun t env file v cap fpp opt w ls w') :
    ∃ l f g, OptLevel.tryFrom opt = .ok l ∧ Bloom.withVersionCapacityOpt env v cap fpp l = .ok f ∧
      g.Reach env ∧ w'.fs file = some g.file ∧ f.Given env ls g := by
  obtain ⟨hd, r, o, p, hr, rfl, rfl, rfl, rfl, hc, hc', h, hl⟩ := h
  unfold main at h
  simp only [hr, Prod.mk.injEq] at h
  obtain ⟨rfl, -, x⟩ := h
  rcases create_cases env w r.sched o r.jobs with ⟨-, n⟩ | ⟨b, bf, -, c1, c2, -, c3⟩
  · exact absurd x n
  obtain ⟨cap', l, e1, e2, e3⟩ := createFilter_ok c1
  obtain rfl : cap' = cap := by
    rcases e3 with ⟨k, rfl⟩ | ⟨k, -, rfl⟩
    · exact hc k
    · rw [← hc' k, hl, List.length_map]
  have hb := (Bloom.new_spec hs e2).1
  refine ⟨l, b, bf, e1, e2, insertFiles_reach hb (parallelInsert_some c2).symm, ?_,
    .parallel hs hb hl c2⟩
  rw [c3, written_out, hd]
  simp [World.written]

/-- The file has a new filter with these parameters and lines. -/
theorem Filled.given {t : Libs} {env : Env} (hs : env.Small) {file : Path} {v : U8} {cap : U64}
    {fpp : F64} {opt : U8} {w : World} {es : List (List U8)}
    (h : Filled t env file v cap fpp opt w es) :
    ∃ l f g, OptLevel.tryFrom opt = .ok l ∧ Bloom.withVersionCapacityOpt env v cap fpp l = .ok f ∧
      g.Reach env ∧ w.fs file = some g.file ∧ f.Given env es g := by
  induction h with
  | create h => exact h.given hs
  | insert _ h ih =>
    obtain ⟨l, f, g, h1, h2, h3, h4, h5⟩ := ih
    obtain ⟨f', g', k1, k2, k3, k4⟩ := h.given hs h4
    obtain rfl := Res.ok.inj ((Bloom.reload_canon hs h3).symm.trans k1)
    have := (h5.trans (.canon env g)).trans k4
    rw [List.append_nil] at this
    exact ⟨l, f, g', h1, h2, k2, k3, this⟩
  | other _ h ih => rw [h]; exact ih

/-- The file has the filter of the bytes, with these lines. -/
theorem Inserted.given {t : Libs} {env : Env} (hs : env.Small) {file : Path} {bs : List U8}
    {w : World} {es : List (List U8)} (h : Inserted t env file bs w es) :
    ∃ f g, Bloom.fromReader env (Reader.ofBytes bs) = .ok f ∧
      g.Reach env ∧ w.fs file = some g.file ∧ f.Given env es g := by
  induction h with
  | first h0 h => exact h.given hs h0
  | again _ h ih =>
    obtain ⟨f, g, h2, h3, h4, h5⟩ := ih
    obtain ⟨f', g', k1, k2, k3, k4⟩ := h.given hs h4
    obtain rfl := Res.ok.inj ((Bloom.reload_canon hs h3).symm.trans k1)
    have := (h5.trans (.canon env g)).trans k4
    rw [List.append_nil] at this
    exact ⟨f, g', h2, k2, k3, this⟩
  | other _ h ih => rw [h]; exact ih

end Cli
end Poppy

import Verif.Model.Python
import Verif.Lemmas.CliCommands
import Verif.Props.Merge
import Verif.Props.Cli

/-! # The Python bindings (C62) -/

namespace Poppy

open Spec Cli Py

/-- Two filters no Python program can tell apart by queries and attributes. -/
def Py.Same (env : Env) (f g : Bloom) : Prop :=
  Py.version g = Py.version f ∧ Py.capacity g = Py.capacity f ∧ Py.fpp g = Py.fpp f ∧
    Py.countEstimate g = Py.countEstimate f ∧ Py.data g = Py.data f ∧ Py.dumps g = Py.dumps f ∧
    Py.isFull g = Py.isFull f ∧
    (∀ k, Py.containsBytes env g k = Py.containsBytes env f k) ∧
    (∀ s, Py.containsStr env g s = Py.containsStr env f s) ∧
    (∀ k, (Py.insertBytes env g k).2 = (Py.insertBytes env f k).2) ∧
    (∀ s, (Py.insertStr env g s).2 = (Py.insertStr env f s).2)

theorem Py.dumps_eq (f : Bloom) : Py.dumps f = .ok f.file := by
  unfold Py.dumps
  rw [C29_write_ok]
  simp

theorem Py.reload (env : Env) (hs : env.Small) (f : Bloom) (hf : f.Reach env) :
    ∃ g, Bloom.fromReader env (Reader.ofBytes f.file) = .ok g ∧ Py.Same env f g := by
  obtain ⟨g, h1, h2, h3, hi, h4, h5, h6, h7, h8⟩ := C22_bloom_round_trip env hs f hf
  refine ⟨g, h1, h2, h4, h5, h6, h7, ?_, ?_, ?_, ?_, ?_, ?_⟩
  · rw [Py.dumps_eq, Py.dumps_eq, h8]
  · have full : ∀ b : Bloom, b.isFull = true ↔ b.countEstimate = b.capacity := by
      intro b
      cases b with
      | v1 b => exact (C15_is_full Sample.f2 b).2
      | v2 b => exact (C15_is_full b Sample.f1).1
    unfold Py.isFull
    rw [Bool.eq_iff_iff, full, full, h6, h4]
  · intro k; unfold Py.containsBytes; rw [h3]
  · intro k; unfold Py.containsStr; rw [h3]
  · intro k; unfold Py.insertBytes; simp only [hi]
  · intro k; unfold Py.insertStr; simp only [hi]

/-- `loads(f.dumps())` is like `f`. -/
theorem C62_loads_dumps (env : Env) (hs : env.Small) (f : Bloom) (hf : f.Reach env) :
    ∃ bs g, Py.dumps f = .ok bs ∧ Py.loads env bs = .ok g ∧ Py.Same env f g := by
  obtain ⟨g, h1, h2⟩ := Py.reload env hs f hf
  refine ⟨f.file, g, Py.dumps_eq f, ?_, h2⟩
  unfold Py.loads
  rw [h1]; rfl

/-- `f.save(p)` then `load(p)` is like `f`, and no other file changes. -/
theorem C62_load_save (env : Env) (hs : env.Small) (f : Bloom) (hf : f.Reach env) (w : World)
    (p : Path) (hc : w.creatable p = true) (hr : w.access p = .full) (hd : w.disk = none) :
    ∃ w' g, Py.save w f p = (w', .ok ()) ∧ Py.load env w' p = .ok g ∧ Py.Same env f g ∧
      ∀ q ≠ p, w'.fs q = w.fs q := by
  obtain ⟨g, h1, h2⟩ := Py.reload env hs f hf
  have hsave : Py.save w f p = (w.written p f.file, .ok ()) := by
    unfold Py.save World.create
    simp only [hc, if_true]
    rw [show ({ w with fs := fun q => if q = p then some [] else w.fs q } : World).disk = none from hd,
      C29_write_ok]
    simp only [PyRes.ofRes, List.nil_append, Prod.mk.injEq, and_true]
    unfold World.put World.written
    cases w
    simp only [World.mk.injEq, and_true]
    refine ⟨?_, trivial, trivial, hd.symm⟩
    funext q
    by_cases hq : q = p <;> simp [hq]
  refine ⟨_, g, hsave, ?_, h2, fun q hq => by simp [World.written, hq]⟩
  unfold Py.load World.open
  simp [World.written, hr, h1, PyRes.ofRes]

/-- `*_str` methods act on the UTF-8 encoding of the text. -/
theorem C62_str (env : Env) (f : Bloom) (s : String) :
    Py.insertStr env f s = Py.insertBytes env f (s.toList.flatMap utf8) ∧
    Py.containsStr env f s = Py.containsBytes env f (s.toList.flatMap utf8) := by
  have h : s.toUTF8.data.toList.map UInt8.toBitVec = s.toList.flatMap utf8 := by
    rw [String.toUTF8_eq_toByteArray, ← String.utf8Encode_toList, List.utf8Encode,
      List.data_toByteArray, List.map_flatMap]
    rfl
  unfold Py.insertStr Py.insertBytes Py.containsStr Py.containsBytes
  rw [h]
  exact ⟨rfl, rfl⟩

/-- `with_params` refuses levels above 3 with `ValueError`; otherwise it is the Rust constructor with
this level, and `new` and `with_version` use level 0 (and version 2). -/
theorem C62_with_params (env : Env) (v : U8) (cap : U64) (fpp : F64) (opt : U8) :
    (3 < opt.toNat → Py.withParams env v cap fpp opt = .valueError (.optLevel opt)) ∧
    (opt.toNat ≤ 3 → ∃ o, o.toU8 = opt ∧ Py.withParams env v cap fpp opt
        = .ofRes (Bloom.withVersionCapacityOpt env v cap fpp o)) ∧
    Py.withVersion env v cap fpp = Py.withParams env v cap fpp 0 ∧
    Py.new env cap fpp = Py.withParams env 2 cap fpp 0 := by
  refine ⟨fun h => ?_, fun h => ?_, rfl, rfl⟩
  · unfold Py.withParams; rw [optLevel_err _ h]
  · obtain ⟨o, h1, h2⟩ := (optLevel_iff opt).2 h
    refine ⟨o, h2, ?_⟩
    unfold Py.withParams
    rw [h1]; rfl

/-- A failed insertion is a `ValueError` (the filter is full) and leaves the filter unchanged. -/
theorem C62_insert_fails (env : Env) (hs : env.Small) (f : Bloom) (hf : f.Reach env) (k : List U8) :
    (∀ e, (Py.insertBytes env f k).2 ≠ .osError e) ∧
    (∀ e, (Py.insertBytes env f k).2 = .valueError e →
      (Py.insertBytes env f k).1 = f ∧ e = .tooManyEntries) := by
  unfold Py.insertBytes
  cases h : f.insertBytes env k with
  | mk g r =>
    cases r with
    | ok b => simp [PyRes.ofRes]
    | panic => simp [PyRes.ofRes]
    | err e =>
      obtain ⟨rfl, rfl⟩ := Bloom.insert_err hs hf h
      simp [PyRes.ofRes]

/-- A failed merge is a `ValueError` raised exactly for different parameters, and leaves the filter
unchanged. -/
theorem C62_merge_fails (env : Env) (f o : Bloom) :
    (∀ e, (Py.unionMerge env f o).2 ≠ .osError e) ∧
    ((∃ e, (Py.unionMerge env f o).2 = .valueError e) ↔ f.hasSameParams o = .ok false) ∧
    (∀ e, (Py.unionMerge env f o).2 = .valueError e → (Py.unionMerge env f o).1 = f) := by
  obtain ⟨h1, h2, -, -⟩ := C20_bloom (env := env) f o
  rw [← h1]
  unfold Py.unionMerge
  cases h : f.unionMerge env o with
  | mk g r =>
    rw [h] at h2
    cases r with
    | ok b => simp [PyRes.ofRes]
    | panic => simp [PyRes.ofRes]
    | err e => simpa [PyRes.ofRes] using (h2 e rfl).2

/-- Comparing fails the same way. -/
theorem C62_common_fails (env : Env) (f o : Bloom) :
    (∀ e, Py.countCommonEntries env f o ≠ .osError e) ∧
    ((∃ e, Py.countCommonEntries env f o = .valueError e) ↔ f.hasSameParams o = .ok false) := by
  obtain ⟨-, -, h1, -⟩ := C20_bloom (env := env) f o
  rw [← h1]
  unfold Py.countCommonEntries
  cases f.countCommonEntries env o <;> simp [PyRes.ofRes]

/-- Constructors and loaders: any failure of the Rust function is a `ValueError` carrying it;
`OSError` comes only from a file which cannot be opened. -/
theorem C62_load_fails (env : Env) (w : World) (p : Path) (bs : List U8) :
    (∀ e, Py.loads env bs ≠ .osError e) ∧
    (∀ e, Py.loads env bs = .valueError e ↔ Bloom.fromReader env (Reader.ofBytes bs) = .err e) ∧
    ((∃ e, Py.load env w p = .osError e) ↔ (w.access p = .denied ∨ w.fs p = none)) ∧
    (w.access p = .full → w.fs p = some bs → Py.load env w p = Py.loads env bs) := by
  unfold Py.loads
  refine ⟨?_, ?_, ?_, ?_⟩
  · cases Bloom.fromReader env (Reader.ofBytes bs) <;> simp [PyRes.ofRes]
  · cases Bloom.fromReader env (Reader.ofBytes bs) <;> simp [PyRes.ofRes]
  · unfold Py.load World.open
    have hne : ∀ r : Res Bloom, ∀ e, PyRes.ofRes r ≠ .osError e := by
      intro r e; cases r <;> simp [PyRes.ofRes]
    cases hf : w.fs p with
    | none => simp
    | some bs =>
      cases hr : w.access p with
      | denied => simp
      | full => simp [hne]
      | upTo k => by_cases hk : k ≤ bs.length <;> simp [hk, hne]
  · intro hr hf
    unfold Py.load World.open
    simp [hr, hf]

/-- `save` raises `OSError` exactly when the file cannot be created, and then changes no file; it
never touches another file. -/
theorem C62_save_fails (w : World) (f : Bloom) (p : Path) :
    ((∃ e, (Py.save w f p).2 = .osError e) ↔ w.creatable p = false) ∧
    (w.creatable p = false → (Py.save w f p).1 = w) ∧
    (∀ q ≠ p, (Py.save w f p).1.fs q = w.fs q) := by
  unfold Py.save World.create
  cases hc : w.creatable p with
  | false => simp
  | true =>
    simp only [if_true]
    refine ⟨⟨?_, (by cases ·)⟩, (by cases ·), fun q hq => by simp [World.put, hq]⟩
    rintro ⟨e, he⟩
    cases h : (f.write ⟨[], w.disk⟩).2 <;> simp [h, PyRes.ofRes] at he

/-! Concrete cases -/

example : ∃ bs g, Py.dumps (.v2 Sample.f2) = .ok bs ∧ Py.loads Sample.env bs = .ok g ∧
    Py.Same Sample.env (.v2 Sample.f2) g :=
  C62_loads_dumps _ Sample.env_small _ (V2.Reach.make Sample.f2_make)

example : ∃ w' g, Py.save Sample.world (.v1 Sample.f1) "bf" = (w', .ok ()) ∧
    Py.load Sample.env w' "bf" = .ok g ∧ Py.Same Sample.env (.v1 Sample.f1) g ∧
      ∀ q ≠ "bf", w'.fs q = Sample.world.fs q :=
  C62_load_save _ Sample.env_small (.v1 Sample.f1) (V1.Reach.make Sample.f1_make) _ _ rfl rfl rfl

example : Py.insertStr Sample.env (.v1 Sample.f1) "é"
    = Py.insertBytes Sample.env (.v1 Sample.f1) [0xc3#8, 0xa9#8] := by
  rw [(C62_str _ _ _).1]
  congr 1

example : Py.withParams Sample.env 2 100 Sample.p001 4 = .valueError (.optLevel 4) :=
  (C62_with_params _ _ _ _ _).1 (by decide)

example : ∃ e, (Py.unionMerge Sample.env (.v1 Sample.f1) (.v2 Sample.f2)).2 = .valueError e :=
  (C62_merge_fails _ _ _).2.1.2 (by decide +kernel)

example : (∃ e, Py.load Sample.env Sample.world "nowhere" = .osError e) :=
  (C62_load_fails _ _ _ []).2.2.1.2 (Or.inr (by decide +kernel))

end Poppy

import Verif.Props.CliCommands
import Verif.SessionSpec
import Verif.Lemmas.Stdout

/-! Lemmas about sequences of commands. -/

namespace Poppy

open Spec Cli

/-- `g` has the parameters of `f` and contains whatever `f` does. -/
structure Bloom.Grows (env : Env) (f g : Bloom) : Prop where
  version : g.version = f.version
  capacity : g.capacity = f.capacity
  fpp : g.fpp = f.fpp
  hasBits : f.HasBits ↔ g.HasBits
  contains : ∀ k, f.containsBytes env k = .ok true → g.containsBytes env k = .ok true

namespace Bloom.Grows

theorem refl (env : Env) (f : Bloom) : Grows env f f := ⟨rfl, rfl, rfl, Iff.rfl, fun _ h => h⟩

theorem trans {env : Env} {f g h : Bloom} (a : Grows env f g) (b : Grows env g h) :
    Grows env f h :=
  ⟨b.version.trans a.version, b.capacity.trans a.capacity, b.fpp.trans a.fpp,
    a.hasBits.trans b.hasBits, fun k hk => b.contains k (a.contains k hk)⟩

theorem inserts {env : Env} (hs : env.Small) {f : Bloom} (hf : f.Reach env)
    (ks : List (List U8)) : Grows env f (f.inserts env ks) := by
  have hc : ∀ k, f.containsBytes env k = .ok true →
      (f.inserts env ks).containsBytes env k = .ok true := fun k hk => inserts_contains hs hf hk
  cases f with
  | v1 f =>
    rw [Bloom.inserts_v1] at hc ⊢
    have e := V1.inserts_ext env f ks
    exact ⟨rfl, e.capacity, e.fpp, by
      show f.bitSize ≠ 0 ↔ (V1.inserts env f ks).bitSize ≠ 0
      rw [e.bitSize], hc⟩
  | v2 f =>
    rw [Bloom.inserts_v2] at hc ⊢
    have e := V2.inserts_ext env f (ks.map Key.slice)
    exact ⟨rfl, e.capacity, e.fpp, Iff.rfl, hc⟩

theorem parallel {env : Env} (hs : env.Small) {w : World} {s : Schedule} {f g : Bloom}
    (hf : f.Reach env) {files : List Path} {jobs : ℕ}
    (h : parallelInsert env w s f files jobs = some (.ok g)) : Grows env f g := by
  have hc : ∀ k, f.containsBytes env k = .ok true → g.containsBytes env k = .ok true :=
    fun k hk => insertFiles_contains hs hf (parallelInsert_some h).symm (Or.inl hk)
  cases f with
  | v1 f =>
    obtain ⟨_, g', _, rfl, e1, e2, _, _, e5, _⟩ := C54_v1_bits hs hf h
    exact ⟨rfl, e1, e2, by
      show f.bitSize ≠ 0 ↔ g'.bitSize ≠ 0
      rw [e5], hc⟩
  | v2 f =>
    obtain ⟨_, g', _, rfl, e1, e2, _⟩ := C54_v2_bits hf h
    exact ⟨rfl, e1, e2, Iff.rfl, hc⟩

theorem reload {env : Env} (hs : env.Small) {f : Bloom} (hf : f.Reach env) :
    ∃ g, Bloom.fromReader env (Reader.ofBytes f.file) = .ok g ∧ Grows env f g := by
  obtain ⟨g, hg, gv, gc, _, gcap, gfpp, _⟩ := C22_bloom_round_trip env hs f hf
  refine ⟨g, hg, gv, gcap, gfpp, ?_, fun k hk => by rw [gc, hk]⟩
  cases f with
  | v1 f =>
    obtain ⟨g', hg', rfl, _⟩ := C22_v1_round_trip env f hf
    have := ((C51_readers env f.file).1 _).2 hg'
    rw [show Bloom.fromReader env (Reader.ofBytes f.file) = _ from hg] at this
    cases this
    exact Iff.rfl
  | v2 f =>
    cases g with
    | v1 g => exact absurd gv (by simp [Bloom.version])
    | v2 g => exact Iff.rfl

end Bloom.Grows

namespace Cli

/-- What `insert` does to the filter file when nothing goes wrong while writing. -/
theorem insert_effect {env : Env} (hs : env.Small) {w : World} (hd : w.disk = none) (s : Schedule)
    (stdin : Stdin) (o : Insert) (jobs : ℕ) :
    ((insert env w s stdin o jobs).1 = w ∧ (insert env w s stdin o jobs).2 ≠ some (.ok ())) ∨
    ∃ (bs : List U8) (f : Bloom) (bs' : List U8) (g : Bloom) (es : List (List U8)),
      w.open o.file = .ok (Reader.ofBytes bs) ∧ Bloom.fromReader env (Reader.ofBytes bs) = .ok f ∧
      (insert env w s stdin o jobs).1 = w.written o.file bs' ∧
      Bloom.fromReader env (Reader.ofBytes bs') = .ok g ∧ f.Grows env g ∧
      AllOpen w o.inputs ∧ inputLines w stdin o.stdin o.inputs = es.map Res.ok ∧
      (f.HasBits → ∀ k ∈ es, g.containsBytes env k = .ok true) := by
  rcases insert_cases env w s stdin o jobs with hw | ⟨bs, b, b', bf, h1, h2, h3, h4, hc, he⟩
  · exact Or.inl hw
  · right
    have hb := Bloom.Reach.load h2
    have hb' : b'.Reach env ∧ b.Grows env b' ∧ ∃ ea : List (List U8),
        (if o.stdin || o.inputs.isEmpty then stdin.lines else []) = ea.map Res.ok ∧
        (b.HasBits → ∀ k ∈ ea, b'.containsBytes env k = .ok true) := by
      split at h3
      · rename_i hi
        obtain ⟨ea, e1, e2, rfl⟩ := insertLines_ok h3
        refine ⟨hb.inserts ea, Bloom.Grows.inserts hs hb ea, ea, ?_, fun hh k hk =>
          C52_fill_contains hs hb hh (Bloom.fill_of_allOk e2) k hk⟩
        rw [if_pos hi, e1]
      · rename_i hi
        cases h3
        exact ⟨hb, .refl env b, [], by rw [if_neg hi]; rfl, by simp⟩
    obtain ⟨r', g', ea, e1, e2⟩ := hb'
    have hbf : bf.Reach env := insertFiles_reach r' (parallelInsert_some h4).symm
    obtain ⟨hop, ess, _, _, e3, _⟩ := insertFiles_ok (parallelInsert_some h4).symm
    obtain ⟨g, hg, hgr⟩ := Bloom.Grows.reload hs hbf
    have gp := Bloom.Grows.parallel hs r' h4
    refine ⟨bs, b, bf.file, g, ea ++ ess.flatten, h1, h2, ?_, hg, g'.trans (gp.trans hgr), hop, ?_,
      fun hh k hk => ?_⟩
    · rw [he, written_out, hd]
    · rw [inputLines, e1, e3, List.map_append]
    · apply hgr.contains
      rcases List.mem_append.1 hk with hk | hk
      · exact gp.contains k (e2 hh k hk)
      · exact (C54_members hs r' h4 ⟨hop, e3⟩ k).2 (g'.hasBits.1 hh) hk

end Cli

theorem Cli.stored_of_open {env : Env} {w : World} {p : Path} {bs : List U8} {f : Bloom}
    (h : w.open p = .ok (Reader.ofBytes bs))
    (hf : Bloom.fromReader env (Reader.ofBytes bs) = .ok f) : Stored env w p f :=
  ⟨_, open_ok h, hf⟩

theorem Cli.Stored.unique {env : Env} {w : World} {p : Path} {f g : Bloom}
    (hf : Stored env w p f) (hg : Stored env w p g) : f = g := by
  obtain ⟨bs, h1, h2⟩ := hf
  obtain ⟨bs', h3, h4⟩ := hg
  rw [h1] at h3
  cases h3
  rw [h2] at h4
  cases h4
  rfl

end Poppy

import Verif.Lemmas.Readme
import Verif.Props.Jobs

/-! # The command lines in the README (C117) -/

namespace Poppy

open Cli
open Spec.Line (Words Means AsksHelp ReadSpec Fine Reads Dashed Decimal Numeral)

/-- `poppy create -c C -p P F` and then `poppy show F`: the capacity and the probability shown are
the words that were given, the version is 2 and the number of elements 0. -/
theorem C117_create_show_partial {t : Libs} (ht : t.fmt = stdFmt) {env : Env} (hs : env.Small)
    {w w' : World} (hd : w.disk = none) {f : Text} (hf : ¬ Dashed f) (hf0 : f ≠ [])
    (ha : w.access (String.ofList f) = .full) {n : U64} {b : F64} {q : ℚ} {c p : Text}
    (hc : stdFmt.u64 n = String.ofList c) (hb : FVal.ofBits b = .fin q) (hq : 0 < q)
    (hp : stdFmt.f64 (.fin q) = String.ofList p) {x x' : Around} (hx : x'.stdout = none)
    {pr : Printed}
    (h : tool t readF64 env w ["create".toList, "-c".toList, c, "-p".toList, p, f] x
      = (w', pr, some 0)) :
    ∃ l₁ l₂, tool t readF64 env w' ["show".toList, f] x' = (w', .text [
        "File: " ++ String.ofList f,
        "\tversion                                  : 2",
        "\tcapacity (desired number of elements)    : " ++ String.ofList c,
        "\tn (estimated number of elements)         : 0",
        "\tfpp (false positive probability)         : " ++ String.ofList p, l₁, l₂], some 0) := by
  obtain ⟨c', e1, dc, _⟩ := C96_integers n
  rw [hc, String.ofList_inj] at e1
  subst e1
  have hz : b ≠ 0x8000000000000000#64 := by
    rintro rfl
    rw [show FVal.ofBits 0x8000000000000000#64 = .fin 0 from by decide +kernel] at hb
    cases hb
    exact lt_irrefl _ hq
  obtain ⟨p', e2, rp, _⟩ := C96_back b hz
  rw [hb, hp, String.ofList_inj] at e2
  subst e2
  have rp := rp (by rw [hb]; exact fun h => (by cases h))
  obtain ⟨p', n', k', e3, np, _⟩ := C96_shortest hb hq
  rw [hp, String.ofList_inj] at e3
  subst e3
  have words : Words Spec.Line.create ["-c".toList, c, "-p".toList, p, f]
      [(⟨some 'c', "capacity", some .usize⟩, c), (⟨some 'p', "probability", some .f64⟩, p)] [f] := by
    refine .short (s := []) (c := 'c') (o := ⟨some 'c', "capacity", some .usize⟩) .nil (by decide)
      (by decide) rfl (numeral_not_dashed (.inl ⟨_, dc, rfl⟩)) ?_
    refine .short (s := []) (c := 'p') (o := ⟨some 'p', "probability", some .f64⟩) .nil (by decide)
      (by decide) rfl (numeral_not_dashed np) ?_
    exact .word hf .nil
  have r2 : Reads readF64 .usize c n.toNat := ⟨.inl dc, n.isLt⟩
  have r3 : Reads readF64 .f64 p b.toNat := ⟨b, rp, rfl⟩
  have fine : Fine readF64 [(⟨some 'c', "capacity", some .usize⟩, c),
      (⟨some 'p', "probability", some .f64⟩, p)] := by
    refine ⟨show ["capacity", "probability"].Nodup by decide, ?_⟩
    intro o u hou k hk
    simp only [List.mem_cons, Prod.mk.injEq, List.not_mem_nil, or_false] at hou
    rcases hou with ⟨rfl, rfl⟩ | ⟨rfl, rfl⟩ <;> cases hk
    · exact ⟨_, r2⟩
    · exact ⟨_, r3⟩
  have m : Means readF64 ["create".toList, "-c".toList, c, "-p".toList, p, f] false 2
      (.create ⟨2#8, n, b, 0#8, String.ofList f, []⟩) := by
    refine ⟨[], "create", _, [], rfl, .nil, by simp, readme_fine _, by simp [Spec.Line.Given],
      .inr ⟨rfl, by simp⟩, .create words fine hf0 (.inr ⟨rfl, ?_⟩)
        (.inl ⟨_, _, _, .head _, rfl, rfl, r2⟩)
        (.inl ⟨_, _, _, .tail _ (.head _), rfl, rfl, r3⟩) (.inr ⟨rfl, ?_⟩) rfl rfl⟩ <;>
    · intro o u hou
      simp only [List.mem_cons, Prod.mk.injEq, List.not_mem_nil, or_false] at hou
      rcases hou with ⟨rfl, _⟩ | ⟨rfl, _⟩ <;> decide
  obtain ⟨w₁, pr', r, e, g1, g2, g3, -⟩ :=
    (C90_tool C96_defaults (t := t) (env := env) (w := w) (x := x)).1 _ _ _ m
  rw [h] at g1 g2 g3
  simp only at g1 g2 g3
  subst g1 g2
  rw [g3.mp trivial] at e
  have e' : create env w x.sched ⟨2#8, n, b, 0#8, String.ofList f, []⟩ 2 = (w', some (.ok ())) := by
    unfold main at e
    simp only [Prod.mk.injEq] at e
    rw [← e.1, ← e.2.2]
  obtain ⟨g, hw, hg, hv, hcap, hfpp, hcnt⟩ := create_stores hs hd rfl e'
  simp only at hw hv hcap hfpp
  have hop : w'.open (String.ofList f) = .ok (Reader.ofBytes g.file) := by
    rw [hw]
    unfold World.open World.written
    simp only [if_true, ha]
  obtain ⟨size, _, hsh⟩ := C60_show hs stdFmt hop hg
  rw [hv, hcap, hfpp, hcnt, hb, hp, hc,
    show stdFmt.u64 ((2#8).setWidth 64) = "2" from by decide +kernel,
    show stdFmt.u64 0 = "0" from by decide +kernel] at hsh
  generalize "\tLength of data                           : " ++ _ = l₁ at hsh
  generalize "\tSize of bloom filter                     : " ++ _ = l₂ at hsh
  have ms : Means readF64 ["show".toList, f] false 2 (.show (String.ofList f)) :=
    ⟨[], "show", [f], [], rfl, .nil, by simp, readme_fine _, by simp [Spec.Line.Given],
      .inr ⟨rfl, by simp⟩, .show (.word hf .nil)⟩
  have hps := (C90_parse C96_defaults (a := ⟨false, 2, .show (String.ofList f)⟩)).mpr ms
  refine ⟨l₁, l₂, ?_⟩
  obtain ⟨s1, s2, _⟩ := showLog_eq stdFmt env w' (String.ofList f)
  rw [tool, hps]
  simp only [Around.run, main, ht, hx]
  have hpa : ∀ ls : List String, (⟨[], none⟩ : Stdout String).printAll ls = (⟨ls, none⟩, .ok ()) := by
    intro ls
    have ht : (⟨[], none⟩ : Stdout String).Takes ls := trivial
    rw [Stdout.printAll_eq, if_pos ht]
    rfl
  rw [Log.to, s2 _ hsh, s1, hsh, hpa]
  rfl

/-- `poppy -j 0 create -p P F D…`: the file then holds a filter of version 2 with the probability P,
whose capacity is the number of entries (lines) of the data files, and which contains them all. -/
theorem C117_create_from_partial {t : Libs} {rd : ReadF64} (hr : ReadSpec rd) {env : Env}
    (hs : env.Small) {w w' : World} (hd : w.disk = none) {f p : Text} {ds : List Text}
    (hf : ¬ Dashed f) (hf0 : f ≠ []) (hp : ¬ Dashed p) {b : F64} (hb : rd p = some b)
    (hds : ∀ d ∈ ds, ¬ Dashed d) (hds0 : ds ≠ []) {x : Around} {pr : Printed}
    (h : tool t rd env w ("-j".toList :: "0".toList :: "create".toList :: "-p".toList :: p :: f :: ds) x
      = (w', pr, some 0)) :
    ∃ (g : Bloom) (es : List (List U8)), Stored env w' (String.ofList f) g ∧
      linesOf w (ds.map String.ofList) = es.map Res.ok ∧ g.version = 2 ∧ g.fpp = b ∧
      g.capacity = BitVec.ofNat 64 es.length ∧ ∀ k ∈ es, g.containsBytes env k = .ok true := by
  have r0 : Reads rd .usize "0".toList 0 := ⟨.inl ⟨by decide, by decide, by decide⟩, by decide⟩
  have rp : Reads rd .f64 p b.toNat := ⟨b, hb, rfl⟩
  have one : ∀ {o : Spec.Line.Opt} {v : Text}, (∀ k, o.kind = some k → ∃ n, Reads rd k v n) →
      Fine rd [(o, v)] := by
    intro o v h
    refine ⟨by simp, fun o' v' hm k hk => ?_⟩
    simp only [List.mem_cons, List.not_mem_nil, or_false, Prod.mk.injEq] at hm
    obtain ⟨rfl, rfl⟩ := hm
    exact h k hk
  have m : Means rd
      ("-j".toList :: "0".toList :: "create".toList :: "-p".toList :: p :: f :: ds) false 0
      (.create ⟨2#8, 10000#64, b, 0#8, String.ofList f, ds.map String.ofList⟩) := by
    refine ⟨["-j".toList, "0".toList], "create", "-p".toList :: p :: f :: ds,
      [(⟨some 'j', "jobs", some .usize⟩, "0".toList)], rfl, ?_, by decide,
      one fun k hk => ?_, by simp [Spec.Line.Given],
      .inl ⟨_, _, _, .head _, rfl, rfl, r0⟩,
      .create (l := [(⟨some 'p', "probability", some .f64⟩, p)]) ?_ (one fun k hk => ?_) hf0
        (.inr ⟨rfl, by simp⟩) (.inr ⟨rfl, by simp⟩) (.inl ⟨_, _, _, .head _, rfl, rfl, rp⟩)
        (.inr ⟨rfl, by simp⟩) rfl rfl⟩
    · exact .short (s := []) (c := 'j') (o := ⟨some 'j', "jobs", some .usize⟩) .nil (by decide)
        (by decide) rfl (by rintro ⟨s, _, h⟩; cases h) .nil
    · cases hk
      exact ⟨0, r0⟩
    · exact .short (s := []) (c := 'p') (o := ⟨some 'p', "probability", some .f64⟩) .nil (by decide)
        (by decide) rfl hp (readme_words (by simpa using ⟨hf, hds⟩))
    · cases hk
      exact ⟨_, rp⟩
  obtain ⟨w₁, pr', r, e, g1, g2, g3, -⟩ :=
    (C90_tool hr (t := t) (env := env) (w := w) (x := x)).1 _ _ _ m
  rw [h] at g1 g2 g3
  simp only at g1 g2 g3
  subst g1 g2
  rw [g3.mp trivial] at e
  obtain ⟨g, es, a1, a2, a3, a4, a5, a6⟩ := C74_create hs hd rfl e
  refine ⟨g, es, a1, a2.2, a3, a4, ?_, a6 ?_⟩
  · rw [a5, if_neg (by simpa using hds0)]
  · cases g with
    | v1 f => exact absurd a3 (by simp [Bloom.version])
    | v2 f => trivial

/-- `poppy help COMMAND`, `poppy COMMAND --help` and `poppy COMMAND -h` show help and do nothing
else. -/
theorem C117_help_partial {t : Libs} {rd : ReadF64} {env : Env} {w : World} {name : String}
    (hn : name ∈ ["create", "insert", "check", "bench", "show"]) {ws : List Text}
    (hw : ws ∈ [["help".toList, name.toList], [name.toList, "--help".toList],
      [name.toList, "-h".toList]]) {x : Around} : tool t rd env w ws x = (w, .none, some 0) := by
  have key : parseArgs rd ws = .error .help := by
    simp only [List.mem_cons, List.not_mem_nil, or_false] at hn hw
    rcases hn with rfl | rfl | rfl | rfl | rfl <;> rcases hw with rfl | rfl | rfl <;> rfl
  rw [tool, key]

/-- `poppy create help` does not show help: with enough memory it makes a filter and stores it in
a file named `help`. -/
theorem C117_create_help_violated {t : Libs} {rd : ReadF64} (hr : ReadSpec rd) {env : Env}
    (hs : env.Small) (sp : env.libm.Spec) (hm : 1874096 ≤ env.allocLimit) {w : World}
    (hd : w.disk = none) (hc : w.creatable "help" = true) (hw : w.fs "help" = none) (x : Around) :
    ¬ AsksHelp rd ["create".toList, "help".toList] ∧
    ∃ w' f, tool t rd env w ["create".toList, "help".toList] x = (w', .none, some 0) ∧
      Stored env w' "help" f ∧ f.version = 2 ∧ f.capacity = 10000 := by
  have m : Means rd ["create".toList, "help".toList] false 2
      (.create ⟨2#8, 10000#64, Spec.Line.percent, 0#8, "help", []⟩) := by
    refine ⟨[], "create", ["help".toList], [], rfl, .nil, by simp, readme_fine _,
      by simp [Spec.Line.Given], .inr ⟨rfl, by simp⟩,
      .create (readme_words (by simp [Dashed])) (readme_fine _) (by decide) (.inr ⟨rfl, by simp⟩)
        (.inr ⟨rfl, by simp⟩) (.inr ⟨rfl, by simp⟩) (.inr ⟨rfl, by simp⟩) (by decide) rfl⟩
  refine ⟨(C90_one_meaning hr m).1, ?_⟩
  obtain ⟨f, hcr⟩ := create_succeeds sp (cap := 10000#64) (p := Spec.Line.percent) (by decide)
    (show 10000 * 187 + 4096 ≤ _ from hm) hd hc hw x.sched
  obtain ⟨b, e1, e2, e3, e4, _⟩ := create_stores hs hd rfl hcr
  have hp := (C90_parse hr (a := ⟨false, 2, _⟩)).mpr m
  refine ⟨w.written "help" b.file, b, ?_, ⟨b.file, ?_, e2⟩, e3, e4⟩
  · rw [tool, hp]
    simp only [Around.run, main, hcr]
    rw [e1]
    rfl
  · simp [World.written]

/-- `poppy -j 0 check F FILE…` never succeeds. -/
theorem C117_check_jobs_violated {t : Libs} {rd : ReadF64} (hr : ReadSpec rd) {env : Env} {w : World}
    {f : Text} {is : List Text} (hf : ¬ Dashed f) (his : ∀ i ∈ is, ¬ Dashed i) (hi : is ≠ [])
    (x : Around) :
    (tool t rd env w ("-j".toList :: "0".toList :: "check".toList :: f :: is) x).2.2 ≠ some 0 := by
  have r0 : Reads rd .usize "0".toList 0 := ⟨.inl ⟨by decide, by decide, by decide⟩, by decide⟩
  have m : Means rd ("-j".toList :: "0".toList :: "check".toList :: f :: is) false 0
      (.check ⟨false, false, false, String.ofList f, is.map String.ofList⟩) := by
    refine ⟨["-j".toList, "0".toList], "check", f :: is,
      [(⟨some 'j', "jobs", some .usize⟩, "0".toList)], rfl, ?_, by decide, ⟨by simp, ?_⟩, ?_,
      .inl ⟨_, _, _, .head _, rfl, rfl, r0⟩,
      .check (readme_words (by simpa using ⟨hf, his⟩)) (readme_fine _) ?_ ?_ ?_ rfl rfl⟩
    · exact .short (s := []) (c := 'j') (o := ⟨some 'j', "jobs", some .usize⟩) .nil (by decide)
        (by decide) rfl (by rintro ⟨s, _, h⟩; cases h) .nil
    · intro o v h k hk
      simp only [List.mem_cons, List.not_mem_nil, or_false, Prod.mk.injEq] at h
      obtain ⟨rfl, rfl⟩ := h
      cases hk
      exact ⟨0, r0⟩
    · simp [Spec.Line.Given]
    · simp [Spec.Line.Given]
    · simp [Spec.Line.Given]
    · simp [Spec.Line.Given]
  obtain ⟨w', pr', r, e, g1, g2, g3, -⟩ :=
    (C90_tool hr (t := t) (env := env) (w := w) (x := x)).1 _ _ _ m
  intro h0
  have := g3.mp h0
  have key := C91_zero_check t env w
    ⟨.check ⟨false, false, false, String.ofList f, is.map String.ofList⟩, 0, x.stdin, x.stdout,
      x.sched, x.rng, x.measure⟩ rfl rfl (by simpa using hi)
  rw [e] at key
  exact key this

namespace Sample

/-- Two megabytes of memory. -/
noncomputable def env2M : Env := { Sample.envX false with allocLimit := 2 ^ 21, allocLimit_lt := by decide }

def emptyDir : World := ⟨fun _ => none, fun _ => .full, fun _ => true, none, 4, by decide⟩

end Sample

-- the numbers of the README, as `show` prints them
example : stdFmt.u64 1000#64 = String.ofList "1000".toList ∧
    FVal.ofBits Spec.Line.permille = .fin (1152921504606847 / 1152921504606846976) ∧
    stdFmt.f64 (FVal.ofBits Spec.Line.permille) = String.ofList "0.001".toList := by decide +kernel

-- with two megabytes a file named `help` appears
example (x : Around) : ∃ w' f, tool Sample.libs Sample.rd Sample.env2M Sample.emptyDir
      ["create".toList, "help".toList] x = (w', .none, some 0) ∧ Stored Sample.env2M w' "help" f := by
  obtain ⟨_, w', f, h1, h2, _⟩ := C117_create_help_violated (t := Sample.libs) Sample.rd_spec
    (env := Sample.env2M) (show 2 ^ 21 < 2 ^ 50 by decide) Libm.exact_spec (show 1874096 ≤ 2 ^ 21 by decide)
    (w := Sample.emptyDir) rfl rfl rfl x
  exact ⟨w', f, h1, h2⟩

-- the first two command lines of the README
example : ∃ w' l₁ l₂, tool ⟨stdFmt, Sample.libs.hash⟩ readF64 Sample.env2M Sample.emptyDir
      (Sample.ws ["create", "-c", "1000", "-p", "0.001", "filter.pop"]) (Sample.around [])
      = (w', .none, some 0) ∧
    tool ⟨stdFmt, Sample.libs.hash⟩ readF64 Sample.env2M w' (Sample.ws ["show", "filter.pop"])
      (Sample.around []) = (w', .text [
        "File: filter.pop",
        "\tversion                                  : 2",
        "\tcapacity (desired number of elements)    : 1000",
        "\tn (estimated number of elements)         : 0",
        "\tfpp (false positive probability)         : 0.001", l₁, l₂], some 0) := by
  obtain ⟨f, hcr⟩ := create_succeeds (env := Sample.env2M) Libm.exact_spec (cap := 1000#64)
    (p := Spec.Line.permille) (by decide) (show 1000 * 187 + 4096 ≤ 2 ^ 21 by decide)
    (w := Sample.emptyDir) (file := "filter.pop") rfl rfl rfl []
  have hp : parseArgs readF64 (Sample.ws ["create", "-c", "1000", "-p", "0.001", "filter.pop"])
      = .ok ⟨false, 2, .create ⟨2#8, 1000#64, (readF64 "0.001".toList).getD 0, 0#8, "filter.pop", []⟩⟩ := rfl
  rw [show (readF64 "0.001".toList).getD 0 = Spec.Line.permille from by decide +kernel] at hp
  have h : tool ⟨stdFmt, Sample.libs.hash⟩ readF64 Sample.env2M Sample.emptyDir
      (Sample.ws ["create", "-c", "1000", "-p", "0.001", "filter.pop"]) (Sample.around [])
      = (Sample.emptyDir.written "filter.pop" (Bloom.v2 f).file, .none, some 0) := by
    rw [tool, hp]
    simp only [Around.run, main, Sample.around, hcr]
    rfl
  obtain ⟨l₁, l₂, h'⟩ := C117_create_show_partial (t := ⟨stdFmt, Sample.libs.hash⟩) rfl
    (env := Sample.env2M) (show 2 ^ 21 < 2 ^ 50 by decide) rfl (f := "filter.pop".toList)
    (by rintro ⟨s, _, h⟩; cases h) (by decide) rfl (n := 1000#64) (b := Spec.Line.permille)
    (q := 1152921504606847 / 1152921504606846976) (c := "1000".toList) (p := "0.001".toList)
    (by decide +kernel) (by decide +kernel) (by norm_num) (by decide +kernel)
    (x' := Sample.around []) rfl h
  exact ⟨_, l₁, l₂, h, h'⟩

-- a filter from a file
example : (tool Sample.libs Sample.rd Sample.env Sample.world2
      (Sample.ws ["-j", "0", "create", "-p", "0.001", "out", "x"])
      (Sample.around [0, 0, 0, 0, 0, 0, 0])).2.2 = some 0 := by decide +kernel

-- `poppy help create`
example : tool Sample.libs Sample.rd Sample.env Sample.emptyDir (Sample.ws ["help", "create"])
      (Sample.around []) = (Sample.emptyDir, .none, some 0) :=
  C117_help_partial (name := "create") (by decide) (by decide)

-- `check` of a stored filter, with no jobs and with two
example : (tool Sample.libs Sample.rd Sample.env (Sample.stored 5) (Sample.ws ["-j", "0", "check", "out", "x"])
      (Sample.around [0, 0, 0, 0])).2.2 = some 101 ∧
    (tool Sample.libs Sample.rd Sample.env (Sample.stored 5) (Sample.ws ["-j", "2", "check", "out", "x"])
      (Sample.around [0, 0, 0, 0])).2.2 = some 0 := by decide +kernel

end Poppy

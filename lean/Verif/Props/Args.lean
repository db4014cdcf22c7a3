import Verif.Lemmas.ArgsHelp
import Verif.Props.AbstractMain
import Verif.Props.Sessions

/-! # The command line (C90) -/

namespace Poppy

open Cli
open Spec.Line (Words Means AsksHelp ReadSpec Fine Spellable Dashed)

/-- Exactly the command lines with a meaning are accepted, and they give the arguments they mean. -/
theorem C90_parse {rd : ReadF64} (hr : ReadSpec rd) {ws : List Text} {a : Args} :
    parseArgs rd ws = .ok a ↔ Means rd ws a.verbose a.jobs a.command :=
  Line.parse_eq hr

/-- Help is shown exactly if it is asked for before anything that is wrong. -/
theorem C90_help {rd : ReadF64} {ws : List Text} :
    parseArgs rd ws = .error .help ↔ AsksHelp rd ws :=
  Line.parse_help

/-- A command line means one thing, and then does not ask for help. -/
theorem C90_one_meaning {rd : ReadF64} (hr : ReadSpec rd) {ws : List Text} {v : Bool} {j : ℕ}
    {c : Command} (h : Means rd ws v j c) :
    ¬ AsksHelp rd ws ∧ ∀ v' j' c', Means rd ws v' j' c' → v' = v ∧ j' = j ∧ c' = c := by
  have h1 := (C90_parse hr (a := ⟨v, j, c⟩)).mpr h
  refine ⟨fun hh => ?_, fun v' j' c' h' => ?_⟩
  · rw [C90_help.mpr hh] at h1; cases h1
  · have h2 := (C90_parse hr (a := ⟨v', j', c'⟩)).mpr h'
    rw [h1] at h2
    cases h2
    exact ⟨rfl, rfl, rfl⟩

/-- The order of the options does not matter, nor how they are spelled or where they stand among the
other words. -/
theorem C90_order {rd : ReadF64} (hr : ReadSpec rd) {name : String} {os : List Spec.Line.Opt}
    (hn : (name, os) ∈ [("create", Spec.Line.create), ("insert", Spec.Line.insert),
      ("check", Spec.Line.check), ("bench", Spec.Line.bench), ("show", [])])
    {ws ws' : List Text} {l l' : List (Spec.Line.Opt × Text)} {ps : List Text}
    (hw : Words os ws l ps) (hw' : Words os ws' l' ps) (hp : l.Perm l') (hf : Fine rd l)
    (c : Command) :
    parseCommand rd (name.toList :: ws) = .ok c ↔ parseCommand rd (name.toList :: ws') = .ok c := by
  rw [Line.parseCommand_eq hr, Line.parseCommand_eq hr]
  constructor
  · rintro ⟨n, ws₀, e, h⟩
    obtain ⟨e1, rfl⟩ := List.cons.inj e
    obtain rfl := String.toList_injective e1
    exact ⟨name, ws', rfl, Line.names_perm hn hw hw' hp hf h⟩
  · rintro ⟨n, ws₀, e, h⟩
    obtain ⟨e1, rfl⟩ := List.cons.inj e
    obtain rfl := String.toList_injective e1
    exact ⟨name, ws, rfl, Line.names_perm hn hw' hw hp.symm (Line.fine_perm hp hf) h⟩

/-- Every command can be given, with every number of jobs. -/
theorem C90_every {rd : ReadF64} (hr : ReadSpec rd) (a : Args) (hj : a.jobs < 2 ^ 64)
    (hc : Spellable rd a.command) : ∃ ws, parseArgs rd ws = .ok a := by
  obtain ⟨ws, h⟩ := Line.exists_line (v := a.verbose) hj hc
  exact ⟨ws, (C90_parse hr).mpr h⟩

/-- What a run does: if its words mean something, that; otherwise nothing. -/
theorem C90_tool {rd : ReadF64} (hr : ReadSpec rd) {t : Libs} {env : Env} {w : World}
    {ws : List Text} {x : Around} :
    (∀ v j c, Means rd ws v j c →
      ∃ w' pr r, main t env w ⟨c, j, x.stdin, x.stdout, x.sched, x.rng, x.measure⟩ = (w', pr, r) ∧
        (tool t rd env w ws x).1 = w' ∧ (tool t rd env w ws x).2.1 = pr ∧
        ((tool t rd env w ws x).2.2 = some 0 ↔ r = some (.ok ())) ∧
        ((tool t rd env w ws x).2.2 = some 1 ↔ ∃ e, r = some (.err e)) ∧
        ((tool t rd env w ws x).2.2 = some 101 ↔ r = some .panic) ∧
        ((tool t rd env w ws x).2.2 = none ↔ r = none)) ∧
    (AsksHelp rd ws → tool t rd env w ws x = (w, .none, some 0)) ∧
    ((∀ v j c, ¬ Means rd ws v j c) → ¬ AsksHelp rd ws →
      tool t rd env w ws x = (w, .none, some 2)) := by
  refine ⟨fun v j c h => ?_, fun h => ?_, fun h h' => ?_⟩
  · have h1 := (C90_parse hr (a := ⟨v, j, c⟩)).mpr h
    rcases hm : main t env w ⟨c, j, x.stdin, x.stdout, x.sched, x.rng, x.measure⟩ with ⟨w', pr, r⟩
    have ht : tool t rd env w ws x = (w', pr, r.map exitCode) := by
      rw [tool, h1]; simp only [Around.run, hm]
    refine ⟨w', pr, r, rfl, ?_⟩
    rw [ht]
    rcases r with _ | ⟨⟨⟩⟩ | _ | _ <;> simp [exitCode]
  · rw [tool, C90_help.mpr h]
  · rw [tool]
    rcases hp : parseArgs rd ws with e | a
    · rcases e
      · exact absurd (C90_help.mp hp) h'
      · rfl
    · exact absurd ((C90_parse hr).mp hp) (h _ _ _)

/-- Nothing said about the filter: `create` makes one of version 2, and whatever runs of the tool
follow, `check` prints the lines it was created from. -/
theorem C90_create_check {t : Libs} {rd : ReadF64} (hr : ReadSpec rd) {env : Env} (hs : env.Small)
    {f : Text} (hf : ¬ Dashed f) (hf0 : f ≠ []) {ds is : List Text} (hds : ∀ d ∈ ds, ¬ Dashed d)
    (his : ∀ i ∈ is, ¬ Dashed i) {w0 w1 w2 w3 : World} (hd : w0.disk = none) {x x' : Around}
    {p : Printed} {out : List (List U8)}
    (h1 : tool t rd env w0 ("create".toList :: f :: ds) x = (w1, p, some 0))
    (hst : Steps t env (String.ofList f) w1 w2)
    (h2 : tool t rd env w2 ("check".toList :: f :: is) x' = (w3, .bytes out, some 0))
    {line : List U8} (hin : Res.ok line ∈ linesOf w0 (ds.map String.ofList))
    (hline : Res.ok line ∈ linesOf w2 (is.map String.ofList)) : line ∈ out := by
  have words : ∀ {os : List Spec.Line.Opt} {l : List Text}, (∀ d ∈ l, ¬ Dashed d) →
      Words os l [] l := by
    intro os l hl
    induction l with
    | nil => exact .nil
    | cons y l ih => exact .word (hl y (by simp)) (ih fun z hz => hl z (by simp [hz]))
  have fine : Fine rd [] := ⟨by simp, by simp⟩
  have val : ∀ (name : String) (n : ℕ), Spec.Line.Value rd [] name n n :=
    fun name n => .inr ⟨rfl, by simp⟩
  have given : ∀ name : String, (false = true ↔ Spec.Line.Given [] name) :=
    fun name => by simp [Spec.Line.Given]
  have m1 : Means rd ("create".toList :: f :: ds) false 2
      (.create ⟨2#8, 10000#64, Spec.Line.percent, 0#8, String.ofList f, ds.map String.ofList⟩) :=
    ⟨[], "create", f :: ds, [], rfl, .nil, by simp, fine, given _, val _ _,
      .create (words (by simpa using ⟨hf, hds⟩)) fine hf0 (val _ _) (val _ _) (val _ _) (val _ _)
        rfl rfl⟩
  have m2 : Means rd ("check".toList :: f :: is) false 2
      (.check ⟨false, false, false, String.ofList f, is.map String.ofList⟩) :=
    ⟨[], "check", f :: is, [], rfl, .nil, by simp, fine, given _, val _ _,
      .check (words (by simpa using ⟨hf, his⟩)) fine (given _) (given _) (given _) rfl rfl⟩
  obtain ⟨w', pr, r, e, e1, e2, e3, -⟩ := (C90_tool hr (t := t) (env := env) (w := w0) (x := x)).1
    _ _ _ m1
  rw [h1] at e1 e2 e3
  obtain ⟨w'', pr', r', g, g1, g2, g3, -⟩ := (C90_tool hr (t := t) (env := env) (w := w2) (x := x')).1
    _ _ _ m2
  rw [h2] at g1 g2 g3
  simp only at e1 e2 e3 g1 g2 g3
  subst e1 e2 g1 g2
  rw [e3.mp trivial] at e
  rw [g3.mp trivial] at g
  exact C74_v2 hs hd e rfl rfl rfl hin hst rfl rfl (List.mem_append_right _ hline) g rfl rfl

namespace Sample

def rd : ReadF64 := fun s =>
  if s = "0.01".toList then some Spec.Line.percent
  else if s = "0.2".toList then some Spec.Line.fifth
  else if s = "0.001".toList then some Spec.Line.permille
  else none

theorem rd_spec : ReadSpec rd := ⟨by decide, by decide, by decide⟩

def ws (l : List String) : List Text := l.map String.toList

def around (s : Schedule) : Around := ⟨⟨[], false⟩, none, s, rng, measure⟩

/-- What runs of the tool one after the other print, and their exit codes. -/
def toolOut (w : World) : List (List String × Schedule) → List (List (List U8) × Option Nat)
  | [] => []
  | (l, s) :: r => match tool libs rd env w (ws l) (around s) with
    | (w, .bytes out, x) => (out, x) :: toolOut w r
    | (w, _, x) => ([], x) :: toolOut w r

end Sample

-- the defaults are the numbers of the command line, rounded
example : FVal.ofBits Spec.Line.percent = rnd (1 / 100 : ℚ) ∧
    FVal.ofBits Spec.Line.fifth = rnd (1 / 5 : ℚ) ∧
    FVal.ofBits Spec.Line.permille = rnd (1 / 1000 : ℚ) := by decide +kernel

-- words with a meaning
example : parseArgs Sample.rd
      (Sample.ws ["-vj4", "create", "-c", "10", "out", "--version=1", "-O3", "a", "--", "-b"]) =
    .ok ⟨true, 4, .create ⟨1#8, 10#64, Spec.Line.percent, 3#8, "out", ["a", "-b"]⟩⟩ := by
  rfl

example : parseArgs Sample.rd (Sample.ws ["check", "--verify", "f", "--stdin"]) =
    .ok ⟨false, 2, .check ⟨true, false, true, "f", []⟩⟩ := by rfl

example : parseArgs Sample.rd (Sample.ws ["bench", "--fpp", "0.01", "-r7", "--test-size=9"]) =
    .ok ⟨false, 2, .bench ⟨100#64, some 9, 7, Spec.Line.fifth, 2#8, Spec.Line.percent, 0#8, none⟩⟩ := by
  rfl

example : parseArgs Sample.rd (Sample.ws ["show", "-"]) = .ok ⟨false, 2, .show "-"⟩ := by rfl

-- words that ask for help
example : parseArgs Sample.rd (Sample.ws ["-j", "3", "create", "f", "--help", "-x"]) =
    .error .help := by rfl

example : parseArgs Sample.rd (Sample.ws ["help", "check"]) = .error .help := by rfl

-- words with no meaning
example : ∀ l ∈ [[], ["create"], ["create", "-c", "1", "-c", "1", "f"], ["create", "-c", "-1", "f"],
      ["create", "--version", "256", "f"], ["create", "--silent", "f"], ["create", ""],
      ["create", "-p", "x", "f"], ["check", "--stdin=yes", "f"], ["show"], ["show", "f", "g"],
      ["frobnicate"], ["--", "show", "f"], ["bench", "f", "g"], ["-j", "18446744073709551616", "show", "f"],
      ["create", "-x", "--help"], ["--help=1"]],
    parseArgs Sample.rd (Sample.ws l) = .error .usage := by
  simp only [List.forall_mem_cons, List.not_mem_nil, false_imp_iff, implies_true, and_true]
  refine ⟨?_, ?_, ?_, ?_, ?_, ?_, ?_, ?_, ?_, ?_, ?_, ?_, ?_, ?_, ?_, ?_, ?_⟩ <;> rfl

-- two orders of options
example : ∃ ws ws' l l' ps, ws ≠ ws' ∧ Words Spec.Line.create ws l ps ∧
    Words Spec.Line.create ws' l' ps ∧ l.Perm l' ∧ Fine Sample.rd l := by
  refine ⟨Sample.ws ["-c", "9", "f", "-O1"], Sample.ws ["--opt-lvl=1", "-c=9", "f"],
    [(⟨some 'c', "capacity", some .usize⟩, ['9']), (⟨some 'O', "opt-lvl", some .u8⟩, ['1'])],
    [(⟨some 'O', "opt-lvl", some .u8⟩, ['1']), (⟨some 'c', "capacity", some .usize⟩, ['9'])],
    [['f']], by decide, ?_, ?_, .swap .., by decide, ?_⟩
  · exact .short (s := []) (c := 'c') .nil (by decide) (by decide) rfl
      (by rintro ⟨s, _, h⟩; cases h) (.word (by rintro ⟨s, _, h⟩; cases h)
      (.shortJoined (s := []) (c := 'O') .nil (by decide) (by decide) rfl (by decide) (by decide) .nil))
  · exact .eq (o := ⟨some 'O', "opt-lvl", some .u8⟩) (v := ['1']) (by decide) (by decide)
      (.shortEq (s := []) (c := 'c') .nil (by decide) (by decide) rfl
      (.word (by rintro ⟨s, _, h⟩; cases h) .nil))
  · intro o v h k hk
    simp only [List.mem_cons, List.not_mem_nil, or_false, Prod.mk.injEq] at h
    rcases h with ⟨rfl, rfl⟩ | ⟨rfl, rfl⟩ <;> cases hk
    · exact ⟨9, .inl ⟨by decide, by decide, rfl⟩, by decide⟩
    · exact ⟨1, .inl ⟨.inl ⟨by decide, by decide, rfl⟩, by decide⟩⟩

-- a command to spell
example : Spellable Sample.rd (.create ⟨2#8, 7#64, Spec.Line.permille, 1#8, "-f", [""]⟩) :=
  ⟨by decide, "0.001".toList, by decide⟩

-- runs of the tool: a filter is made from the file `x` and asked for the lines of `x` and `y`
example : Sample.toolOut Sample.world2
      [(["create", "out", "x"], [0, 0, 0, 0, 0, 0, 0]),
       (["check", "out", "x", "y"], [0, 0, 0, 0, 1, 1, 1, 1, 1]),
       (["show"], []), (["--help"], []), (["show", "nofile"], [])] =
    [([], some 0), ([[97#8]], some 0), ([], some 2), ([], some 0), ([], some 1)] := by decide +kernel

end Poppy

import Verif.Model.Stdout
import Mathlib.Data.List.Forall2

/-! Lemmas about a standard output that can fail. -/

namespace Poppy
namespace Cli

variable {α : Type}

/-- The standard output takes these lines. -/
def Stdout.Takes (s : Stdout α) (out : List α) : Prop :=
  match s.room with
  | none => True
  | some n => out.length ≤ n

instance (s : Stdout α) (out : List α) : Decidable (s.Takes out) := by
  unfold Stdout.Takes
  split <;> infer_instance

/-- The standard output after these lines were sent to it. -/
def Stdout.after (s : Stdout α) (out : List α) : Stdout α :=
  match s.room with
  | none => ⟨s.lines ++ out, none⟩
  | some n => ⟨s.lines ++ out.take n, some (n - out.length)⟩

theorem Stdout.after_nil (s : Stdout α) : s.after [] = s := by
  rcases s with ⟨ls, _ | n⟩ <;> simp [Stdout.after]

theorem Stdout.takes_nil (s : Stdout α) : s.Takes [] := by
  rcases s with ⟨ls, _ | n⟩ <;> simp [Stdout.Takes]

theorem Stdout.after_append (s : Stdout α) (a b : List α) :
    s.after (a ++ b) = (s.after a).after b := by
  rcases s with ⟨ls, _ | n⟩
  · simp [Stdout.after]
  · simp [Stdout.after, List.take_append, Nat.sub_sub]

theorem Stdout.takes_append (s : Stdout α) (a b : List α) :
    s.Takes (a ++ b) ↔ s.Takes a ∧ (s.after a).Takes b := by
  rcases s with ⟨ls, _ | n⟩
  · simp [Stdout.Takes, Stdout.after]
  · simp only [Stdout.Takes, Stdout.after, List.length_append]
    omega

theorem Stdout.println_eq (s : Stdout α) (l : α) :
    s.println l = (s.after [l], if s.Takes [l] then .ok () else .panic) := by
  rcases s with ⟨ls, _ | _ | n⟩ <;> simp [Stdout.println, Stdout.after, Stdout.Takes]

/-- Once a line was refused all are. -/
theorem Stdout.full {s : Stdout α} {a : List α} (h : ¬ s.Takes a) (b : List α) :
    (s.after a).after b = s.after a := by
  rcases s with ⟨ls, _ | n⟩
  · exact absurd trivial h
  · have : n < a.length := by simpa [Stdout.Takes] using h
    have h0 : n - a.length = 0 := by omega
    simp [Stdout.after, h0]

theorem Stdout.printAll_eq (s : Stdout α) (ls : List α) :
    s.printAll ls = (s.after ls, if s.Takes ls then .ok () else .panic) := by
  induction ls generalizing s with
  | nil => rw [Stdout.printAll, Stdout.after_nil, if_pos (Stdout.takes_nil s)]
  | cons l ls ih =>
    rw [Stdout.printAll, Stdout.println_eq]
    have h1 := Stdout.after_append s [l] ls
    have h2 := Stdout.takes_append s [l] ls
    rw [List.singleton_append] at h1 h2
    by_cases h : s.Takes [l]
    · rw [if_pos h]
      simp only
      rw [ih, h1]
      by_cases h' : (s.after [l]).Takes ls
      · rw [if_pos h', if_pos (h2.2 ⟨h, h'⟩)]
      · rw [if_neg h', if_neg fun hc => h' (h2.1 hc).2]
    · rw [if_neg h, if_neg fun hc => h (h2.1 hc).1, h1, Stdout.full h]

theorem checkPrintTo_eq (o : Check) (line : List U8) (ok : Bool) (s : Stdout (List U8)) :
    checkPrintTo o line ok s = (s.after (checkPrint o line ok),
      if s.Takes (checkPrint o line ok) then .ok () else .panic) := by
  unfold checkPrintTo checkPrint
  split_ifs with h1 h2 h3 h4 h5 <;>
    first
    | exact Stdout.println_eq s _ |>.trans (by simp_all)
    | simp_all [Stdout.after_nil, Stdout.takes_nil]

theorem checkStdinTo_eq (env : Env) (bf : Bloom) (o : Check) (ls : List (Res (List U8)))
    (s : Stdout (List U8)) :
    checkStdinTo env bf o ls s = (s.after (checkStdin env bf o ls).1,
      if s.Takes (checkStdin env bf o ls).1 then (checkStdin env bf o ls).2 else .panic) := by
  induction ls generalizing s with
  | nil => simp [checkStdinTo, checkStdin, Stdout.after_nil, Stdout.takes_nil]
  | cons l ls ih =>
    have hp : (s, Res.panic) = (s.after [], if s.Takes [] then (Res.panic : Res Unit) else .panic) := by
      rw [Stdout.after_nil, ite_self]
    unfold checkStdinTo checkStdin
    rcases l with line | e | _
    · simp only
      rcases bf.containsBytes env line with ok | e | _
      · simp only
        rw [checkPrintTo_eq]
        simp only [Stdout.after_append, Stdout.takes_append]
        by_cases h : s.Takes (checkPrint o line ok)
        · rw [if_pos h]
          simp only
          rw [ih]
          simp [h]
        · rw [if_neg h]
          simp only
          rw [Stdout.full h, if_neg fun hc => h hc.1]
      · exact hp
      · exact hp
    · exact hp
    · exact hp

/-- One step, when the line is taken. -/
theorem stepTo_eq (env : Env) (w : World) (bf : Bloom) (o : Check) (t : Checker)
    (s : Stdout (List U8)) :
    t.stepTo env w bf o s = (if s.Takes (t.step env w bf o).2 then (t.step env w bf o).1
      else .done .panic, s.after (t.step env w bf o).2) := by
  have h0 : ∀ t' : Checker, (t', s) = (if s.Takes [] then t' else .done .panic, s.after []) := by
    intro t'
    rw [Stdout.after_nil, if_pos (Stdout.takes_nil s)]
  rcases t with ⟨_ | ⟨l, ls⟩, _ | ⟨f, fs⟩⟩ | r
  · exact h0 _
  · simp only [Checker.stepTo, Checker.step]
    obtain ⟨x, hx⟩ : ∃ x, w.open f = x := ⟨_, rfl⟩
    rcases x with r | e | _ <;> simp only [hx] <;> exact h0 _
  all_goals first | exact h0 _ | skip
  all_goals
    unfold Checker.stepTo Checker.step
    rcases l with line | e | _
    · simp only
      rcases bf.containsBytes env line with ok | e | _
      · simp only
        rw [checkPrintTo_eq]
        by_cases h : s.Takes (checkPrint o line ok)
        · rw [if_pos h, if_pos h]
        · rw [if_neg h, if_neg h]
      · exact h0 _
      · exact h0 _
    · exact h0 _
    · exact h0 _

/-- A thread of a run with a limited standard output, compared with that of an unlimited one: the
same, or stopped by a refused line. -/
def Lost (a b : Checker) : Prop := a = b ∨ a = .done .panic

theorem lost_refl (ts : List Checker) : List.Forall₂ Lost ts ts :=
  List.forall₂_same.2 fun _ _ => .inl rfl

theorem step_done (env : Env) (w : World) (bf : Bloom) (o : Check) (r : Res Unit) :
    (Checker.done r).step env w bf o = (.done r, []) := rfl

theorem stepTo_done (env : Env) (w : World) (bf : Bloom) (o : Check) (r : Res Unit)
    (s : Stdout (List U8)) : (Checker.done r).stepTo env w bf o s = (.done r, s) := rfl

theorem Stdout.after_full {s : Stdout α} (h : s.room = some 0) (b : List α) : s.after b = s := by
  rcases s with ⟨ls, _ | _ | n⟩ <;> simp_all [Stdout.after]

/-- A run that has lost a line: nothing is printed any more. -/
theorem runCheckersTo_lost (env : Env) (w : World) (bf : Bloom) (o : Check) (sched : Schedule)
    {ts' ts : List Checker} {s : Stdout (List U8)} (hl : List.Forall₂ Lost ts' ts)
    (hd : Checker.done .panic ∈ ts') (hr : s.room = some 0) :
    (runCheckersTo env w bf o sched ts' s).2 = s ∧
      Checker.done .panic ∈ (runCheckersTo env w bf o sched ts' s).1 ∧
      List.Forall₂ Lost (runCheckersTo env w bf o sched ts' s).1 (runCheckers env w bf o sched ts).1 := by
  induction sched generalizing ts' ts with
  | nil => exact ⟨rfl, hd, hl⟩
  | cons i sched ih =>
    unfold runCheckersTo runCheckers
    by_cases hi : i < ts.length
    · have hi' : i < ts'.length := by rw [hl.length_eq]; exact hi
      rw [List.getElem?_eq_getElem hi, List.getElem?_eq_getElem hi']
      simp only
      have hs2 : (ts'[i].stepTo env w bf o s).2 = s := by
        rw [stepTo_eq]; exact Stdout.after_full hr _
      have hlost : Lost (ts'[i].stepTo env w bf o s).1 (ts[i].step env w bf o).1 := by
        rcases List.forall₂_iff_get.1 hl |>.2 i hi' hi with h | h
        · have h : ts'[i] = ts[i] := h
          rw [stepTo_eq, h]
          split_ifs
          · exact .inl rfl
          · exact .inr rfl
        · have h : ts'[i] = .done .panic := h
          rw [h, stepTo_done]
          exact .inr rfl
      have hd' : Checker.done .panic ∈ ts'.set i (ts'[i].stepTo env w bf o s).1 := by
        obtain ⟨j, hj, hjd⟩ := List.getElem_of_mem hd
        by_cases hji : j = i
        · subst hji
          have hsd := stepTo_done env w bf o .panic s
          rw [← hjd] at hsd
          refine List.mem_iff_getElem.2 ⟨j, by simpa using hj, ?_⟩
          rw [List.getElem_set_self, hsd]
          exact hjd
        · refine List.mem_iff_getElem.2 ⟨j, by simpa using hj, ?_⟩
          rw [List.getElem_set_ne (fun h => hji h.symm), hjd]
      have hl' : List.Forall₂ Lost (ts'.set i (ts'[i].stepTo env w bf o s).1)
          (ts.set i (ts[i].step env w bf o).1) := by
        refine List.forall₂_iff_get.2 ⟨by simp [hl.length_eq], fun j h1 h2 => ?_⟩
        simp only [List.get_eq_getElem]
        by_cases hji : i = j
        · subst hji
          rw [List.getElem_set_self, List.getElem_set_self]
          exact hlost
        · rw [List.getElem_set_ne hji, List.getElem_set_ne hji]
          exact List.forall₂_iff_get.1 hl |>.2 j (by simpa using h1) (by simpa using h2)
      have := ih hl' hd'
      rw [hs2]
      exact this
    · have hi' : ¬ i < ts'.length := by rw [hl.length_eq]; exact hi
      rw [List.getElem?_eq_none (by omega), List.getElem?_eq_none (by omega)]
      exact ih hl hd

/-- A run with a limited standard output, compared with the unlimited one. -/
theorem runCheckersTo_eq (env : Env) (w : World) (bf : Bloom) (o : Check) (sched : Schedule)
    (ts : List Checker) (s : Stdout (List U8)) :
    (runCheckersTo env w bf o sched ts s).2 = s.after (runCheckers env w bf o sched ts).2 ∧
    (s.Takes (runCheckers env w bf o sched ts).2 →
      (runCheckersTo env w bf o sched ts s).1 = (runCheckers env w bf o sched ts).1) ∧
    (¬ s.Takes (runCheckers env w bf o sched ts).2 →
      Checker.done .panic ∈ (runCheckersTo env w bf o sched ts s).1 ∧
      List.Forall₂ Lost (runCheckersTo env w bf o sched ts s).1
        (runCheckers env w bf o sched ts).1) := by
  induction sched generalizing ts s with
  | nil =>
    exact ⟨(Stdout.after_nil s).symm, fun _ => rfl, fun h => absurd (Stdout.takes_nil s) h⟩
  | cons i sched ih =>
    unfold runCheckersTo runCheckers
    by_cases hi : i < ts.length
    · rw [List.getElem?_eq_getElem hi]
      simp only
      rw [stepTo_eq]
      simp only [Stdout.after_append, Stdout.takes_append]
      by_cases h : s.Takes (ts[i].step env w bf o).2
      · rw [if_pos h]
        obtain ⟨h1, h2, h3⟩ := ih (ts.set i (ts[i].step env w bf o).1)
          (s.after (ts[i].step env w bf o).2)
        exact ⟨h1, fun hc => h2 hc.2, fun hc => h3 fun hc' => hc ⟨h, hc'⟩⟩
      · rw [if_neg h]
        have hroom : (s.after (ts[i].step env w bf o).2).room = some 0 := by
          rcases s with ⟨ls, _ | n⟩
          · exact absurd trivial h
          · have : n < (ts[i].step env w bf o).2.length := by simpa [Stdout.Takes] using h
            simp only [Stdout.after, Option.some.injEq]
            omega
        have hlost : List.Forall₂ Lost (ts.set i (.done .panic)) (ts.set i (ts[i].step env w bf o).1) := by
          refine List.forall₂_iff_get.2 ⟨by simp, fun j h1 h2 => ?_⟩
          simp only [List.get_eq_getElem]
          by_cases hji : i = j
          · subst hji
            rw [List.getElem_set_self]
            exact .inr rfl
          · rw [List.getElem_set_ne hji, List.getElem_set_ne hji]
            exact .inl rfl
        obtain ⟨h1, h2, h3⟩ := runCheckersTo_lost env w bf o sched hlost
          (List.mem_set (h := hi) ..) hroom
        exact ⟨by rw [h1, Stdout.full h], fun hc => absurd hc.1 h, fun _ => ⟨h2, h3⟩⟩
    · rw [List.getElem?_eq_none (by omega)]
      exact ih ts s

/-- Joining after a lost line: no success, a panic or the same failure as otherwise. -/
theorem joinCheckers_lost {ts' ts : List Checker} (hl : List.Forall₂ Lost ts' ts) :
    (joinCheckers ts' = some .panic ∨ joinCheckers ts' = joinCheckers ts) ∧
      (Checker.done .panic ∈ ts' → joinCheckers ts' ≠ some (.ok ())) := by
  induction hl with
  | nil => exact ⟨.inr rfl, by simp⟩
  | @cons a b as bs hab _ ih =>
    rcases hab with rfl | rfl
    · rcases a with _ | _ | e | _
      · exact ⟨.inr rfl, fun _ => by simp [joinCheckers]⟩
      · simp only [joinCheckers]
        exact ⟨ih.1, fun h => ih.2 (by simpa using h)⟩
      · exact ⟨.inr rfl, fun _ => by simp [joinCheckers]⟩
      · exact ⟨.inr rfl, fun _ => by simp [joinCheckers]⟩
    · exact ⟨.inl rfl, fun _ => by simp [joinCheckers]⟩

theorem checkFilesTo_eq (env : Env) (w : World) (sched : Schedule) (bf : Bloom) (o : Check)
    (jobs : ℕ) (s : Stdout (List U8)) :
    (checkFilesTo env w sched bf o jobs s).1 = s.after (checkFiles env w sched bf o jobs).1 ∧
    (s.Takes (checkFiles env w sched bf o jobs).1 →
      (checkFilesTo env w sched bf o jobs s).2 = (checkFiles env w sched bf o jobs).2) ∧
    (¬ s.Takes (checkFiles env w sched bf o jobs).1 →
      (checkFilesTo env w sched bf o jobs s).2 ≠ some (.ok ()) ∧
      ((checkFilesTo env w sched bf o jobs s).2 = some .panic ∨
        (checkFilesTo env w sched bf o jobs s).2 = (checkFiles env w sched bf o jobs).2)) := by
  unfold checkFilesTo checkFiles
  split_ifs
  · exact ⟨(Stdout.after_nil s).symm, fun _ => rfl, fun h => absurd (Stdout.takes_nil s) h⟩
  · rcases batches o.inputs jobs with bs | e | _
    · obtain ⟨h1, h2, h3⟩ := runCheckersTo_eq env w bf o sched
        (bs.map fun b => Checker.running [] b) s
      refine ⟨h1, fun h => ?_, fun h => ?_⟩
      · show joinCheckers _ = joinCheckers _
        rw [h2 h]
      · obtain ⟨h4, h5⟩ := h3 h
        obtain ⟨h6, h7⟩ := joinCheckers_lost h5
        exact ⟨h7 h4, h6⟩
    · exact ⟨(Stdout.after_nil s).symm, fun _ => rfl, fun h => absurd (Stdout.takes_nil s) h⟩
    · exact ⟨(Stdout.after_nil s).symm, fun _ => rfl, fun h => absurd (Stdout.takes_nil s) h⟩

theorem checkTo_eq (env : Env) (w : World) (sched : Schedule) (stdin : Stdin) (o : Check)
    (jobs : ℕ) (s : Stdout (List U8)) :
    (checkTo env w sched stdin o jobs s).1 = s.after (check env w sched stdin o jobs).1 ∧
    (s.Takes (check env w sched stdin o jobs).1 →
      (checkTo env w sched stdin o jobs s).2 = (check env w sched stdin o jobs).2) ∧
    (¬ s.Takes (check env w sched stdin o jobs).1 →
      (checkTo env w sched stdin o jobs s).2 ≠ some (.ok ()) ∧
      ((checkTo env w sched stdin o jobs s).2 = some .panic ∨
        (checkTo env w sched stdin o jobs s).2 = (check env w sched stdin o jobs).2)) := by
  have h0 : ∀ r : Option (Res Unit), s = s.after [] ∧ (s.Takes [] → r = r) ∧
      (¬ s.Takes [] → r ≠ some (.ok ()) ∧ (r = some .panic ∨ r = r)) := fun r =>
    ⟨(Stdout.after_nil s).symm, fun _ => rfl, fun h => absurd (Stdout.takes_nil s) h⟩
  unfold checkTo check
  rcases (do let r ← w.open o.file; Bloom.fromReader env r : Res Bloom) with bf | e | _
  · simp only
    have hst : (if o.stdin || o.inputs.isEmpty then checkStdinTo env bf o stdin.lines s
          else (s, .ok ()))
        = (s.after (if o.stdin || o.inputs.isEmpty then checkStdin env bf o stdin.lines
            else ([], .ok ())).1,
          if s.Takes (if o.stdin || o.inputs.isEmpty then checkStdin env bf o stdin.lines
            else ([], .ok ())).1
          then (if o.stdin || o.inputs.isEmpty then checkStdin env bf o stdin.lines
            else ([], .ok ())).2 else .panic) := by
      by_cases hu : (o.stdin || o.inputs.isEmpty) = true
      · simp only [if_pos hu]
        exact checkStdinTo_eq ..
      · simp only [if_neg hu]
        rw [Stdout.after_nil, if_pos (Stdout.takes_nil s)]
    rw [hst]
    generalize (if o.stdin || o.inputs.isEmpty then checkStdin env bf o stdin.lines
      else ([], .ok ())) = x
    rcases x with ⟨out, r⟩
    by_cases h : s.Takes out
    · simp only [if_pos h]
      rcases r with _ | e | _
      · obtain ⟨h1, h2, h3⟩ := checkFilesTo_eq env w sched bf o jobs (s.after out)
        simp only [Stdout.after_append, Stdout.takes_append]
        exact ⟨h1, fun hc => h2 hc.2, fun hc => h3 fun hc' => hc ⟨h, hc'⟩⟩
      · exact ⟨rfl, fun _ => rfl, fun hc => absurd h hc⟩
      · exact ⟨rfl, fun _ => rfl, fun hc => absurd h hc⟩
    · simp only [if_neg h]
      rcases r with _ | e | _
      · simp only [Stdout.after_append, Stdout.takes_append]
        exact ⟨(Stdout.full h _).symm, fun hc => absurd hc.1 h, fun _ => ⟨by simp, .inl (by trivial)⟩⟩
      · exact ⟨rfl, fun hc => absurd hc h, fun _ => ⟨by simp, .inl (by trivial)⟩⟩
      · exact ⟨rfl, fun hc => absurd hc h, fun _ => ⟨by simp, .inl (by trivial)⟩⟩
  · exact h0 _
  · exact h0 _

/-- Without input files a refused line is a panic. -/
theorem checkTo_single (env : Env) (w : World) (sched : Schedule) (stdin : Stdin) {o : Check}
    (jobs : ℕ) (s : Stdout (List U8)) (hi : o.inputs = [])
    (hn : ¬ s.Takes (check env w sched stdin o jobs).1) :
    (checkTo env w sched stdin o jobs s).2 = some .panic := by
  have hu : (o.stdin || o.inputs.isEmpty) = true := by simp [hi]
  revert hn
  unfold checkTo check
  generalize (do let r ← w.open o.file; Bloom.fromReader env r : Res Bloom) = x
  rcases x with bf | e | _
  · simp only [if_pos hu]
    rw [checkStdinTo_eq]
    have hf : (checkFiles env w sched bf o jobs).1 = [] := by simp [checkFiles, hi]
    rcases checkStdin env bf o stdin.lines with ⟨out, _ | _ | _⟩
    · intro hn
      simp only [hf, List.append_nil] at hn
      rw [if_neg hn]
    · intro hn
      rw [if_neg hn]
    · intro hn
      rw [if_neg hn]
  · exact fun hn => absurd (Stdout.takes_nil s) hn
  · exact fun hn => absurd (Stdout.takes_nil s) hn

/-- A `check` that succeeds has printed everything. -/
theorem check_of_checkTo {env : Env} {w : World} {sched : Schedule} {stdin : Stdin} {o : Check}
    {jobs : ℕ} {room : Option ℕ} {out : List (List U8)}
    (h1 : (checkTo env w sched stdin o jobs ⟨[], room⟩).1.lines = out)
    (h2 : (checkTo env w sched stdin o jobs ⟨[], room⟩).2 = some (.ok ())) :
    check env w sched stdin o jobs = (out, some (.ok ())) := by
  obtain ⟨c1, c2, c3⟩ := checkTo_eq env w sched stdin o jobs ⟨[], room⟩
  by_cases h : (⟨[], room⟩ : Stdout (List U8)).Takes (check env w sched stdin o jobs).1
  · rw [c2 h] at h2
    rw [c1] at h1
    refine Prod.ext ?_ h2
    rcases room with _ | n
    · simpa [Stdout.after] using h1
    · have hle : (check env w sched stdin o jobs).1.length ≤ n := h
      rw [← h1]
      simp [Stdout.after, List.take_of_length_le hle]
  · exact absurd h2 (c3 h).1

/-! ## Logs -/

theorem Log.out_bind {α β : Type} (x : Log α) (f : α → Log β) :
    (x >>= f).out = x.out ++ match x.res with
      | .ok a => (f a).out
      | _ => [] := by
  rcases x with ⟨o, _ | _ | _⟩
  · rfl
  · exact (List.append_nil _).symm
  · exact (List.append_nil _).symm

theorem Log.res_bind {α β : Type} (x : Log α) (f : α → Log β) :
    (x >>= f).res = x.res >>= fun a => (f a).res := by
  rcases x with ⟨o, _ | _ | _⟩ <;> rfl

theorem Log.res_lift {α : Type} (r : Res α) : (Log.lift r).res = r := rfl

theorem Log.res_print (l : String) : (Log.print l).res = .ok () := rfl

theorem Log.res_pure {α : Type} (a : α) : (pure a : Log α).res = .ok a := rfl

theorem Log.lift_ok_bind {α β : Type} (a : α) (f : α → Log β) : Log.lift (.ok a) >>= f = f a := by
  show (⟨[] ++ (f a).out, (f a).res⟩ : Log β) = f a
  rw [List.nil_append]

theorem Log.lift_err_bind {α β : Type} (e : Error) (f : α → Log β) :
    Log.lift (.err e) >>= f = ⟨[], .err e⟩ := rfl

theorem Log.lift_panic_bind {α β : Type} (f : α → Log β) :
    Log.lift .panic >>= f = ⟨[], .panic⟩ := rfl

theorem Log.print_bind {β : Type} (l : String) (f : Unit → Log β) :
    Log.print l >>= f = ⟨l :: (f ()).out, (f ()).res⟩ := rfl

theorem Log.to_eq (l : Log Unit) (s : Stdout String) :
    l.to s = (s.after l.out, if s.Takes l.out then l.res else .panic) := by
  unfold Log.to
  rw [Stdout.printAll_eq]
  by_cases h : s.Takes l.out
  · rw [if_pos h, if_pos h]
  · rw [if_neg h, if_neg h]

theorem sizeInBytes_ne_err (env : Env) (b : Bloom) (e : Error) : b.sizeInBytes env ≠ .err e := by
  cases b <;> simp only [Bloom.sizeInBytes, V1.sizeInBytes, V2.sizeInBytes, mulU64, addU64] <;>
    split_ifs <;> simp
  split_ifs <;> simp

/-- `show_bf_properties` prints its lines, or fails computing the size. -/
theorem showBfPropertiesLog_eq (fmt : Fmt) (env : Env) (b : Bloom) :
    (showBfPropertiesLog fmt env b).res = (showBfProperties fmt env b).map (fun _ => ()) ∧
    ∀ ls, showBfProperties fmt env b = .ok ls → (showBfPropertiesLog fmt env b).out = ls := by
  unfold showBfProperties showBfPropertiesLog
  rcases hs : b.sizeInBytes env with size | e | _
  · exact ⟨rfl, fun ls h => Res.ok.inj h⟩
  · exact absurd hs (sizeInBytes_ne_err env b e)
  · exact ⟨rfl, fun ls h => by cases h⟩

/-- `show` prints what it should, nothing if it fails otherwise than by a panic. -/
theorem showLog_eq (fmt : Fmt) (env : Env) (w : World) (file : Path) :
    (showLog fmt env w file).res = (Cli.show fmt env w file).map (fun _ => ()) ∧
    (∀ ls, Cli.show fmt env w file = .ok ls → (showLog fmt env w file).out = ls) ∧
    (∀ e, Cli.show fmt env w file = .err e → (showLog fmt env w file).out = []) := by
  unfold Cli.show showLog
  rcases w.open file with r | e | _
  · rw [Log.lift_ok_bind, Res.bind_ok]
    rcases Bloom.partialFromReader env r with b | e | _
    · rw [Log.lift_ok_bind, Res.bind_ok, Log.print_bind]
      obtain ⟨h1, h2⟩ := showBfPropertiesLog_eq fmt env b
      have h3 : ∀ e, showBfProperties fmt env b ≠ .err e := by
        intro e
        unfold showBfProperties
        rcases hs : b.sizeInBytes env with size | e' | _
        · simp
        · exact absurd hs (sizeInBytes_ne_err env b e')
        · simp
      rcases hp : showBfProperties fmt env b with ls | e | _
      · rw [hp] at h1
        refine ⟨h1, fun ls' h => ?_, fun e h => by cases h⟩
        rw [← Res.ok.inj h, h2 ls hp]
      · exact absurd hp (h3 e)
      · rw [hp] at h1
        exact ⟨h1, fun ls' h => (by cases h), fun e h => by cases h⟩
    · exact ⟨rfl, fun ls h => (by cases h), fun _ _ => rfl⟩
    · exact ⟨rfl, fun ls h => (by cases h), fun _ _ => rfl⟩
  · exact ⟨rfl, fun ls h => (by cases h), fun _ _ => rfl⟩
  · exact ⟨rfl, fun ls h => (by cases h), fun _ _ => rfl⟩

end Cli
end Poppy

import Verif.Lemmas.Args
import Mathlib.Tactic.IntervalCases
import Mathlib.Data.Nat.Digits.Lemmas

/-!
# Lemmas about asking for help on the command line
-/

namespace Poppy
namespace Cli
namespace Line

open Spec.Line (Words Dashed Reads Decimal Natural Fine Value Given HelpWord Asks)

variable {rd : ReadF64} {d : Decl} {os : List Spec.Line.Opt}

theorem scan_word_eq {sub : Bool} {w : Text} {ws : List Text} {p : Parsed}
    {y : Parsed × Option Opt} {s : Text}
    (hs : (shape w = .long s ∧ p.long rd d s = .ok y) ∨
      (shape w = .short s ∧ p.shorts rd d s = .ok y)) :
    scan rd d sub none (w :: ws) p = scan rd d sub y.2 ws y.1 := by
  rw [scan]
  rcases hs with ⟨hs, hy⟩ | ⟨hs, hy⟩ <;> simp only [hs, hy]

theorem scan_word_error {sub : Bool} {w : Text} {ws : List Text} {p : Parsed}
    {e : Stop} {s : Text}
    (hs : (shape w = .long s ∧ p.long rd d s = .error e) ∨
      (shape w = .short s ∧ p.shorts rd d s = .error e)) :
    scan rd d sub none (w :: ws) p = .error e := by
  rw [scan]
  rcases hs with ⟨hs, hy⟩ | ⟨hs, hy⟩ <;> simp only [hs, hy]

theorem scan_want_eq (h : Wf d os) {o : Spec.Line.Opt} (ho : o ∈ os) {sub : Bool} {v : Text}
    (hv : ¬ Dashed v) {ws : List Text} {p : Parsed} (hok : Ok rd p [(o, v)]) :
    scan rd d sub (some (optOf o)) (v :: ws) p = scan rd d sub none ws (addTo p [(o, v)]) := by
  have hy : ¬ hyphen v = true := fun e => hv (hyphen_iff.mp e)
  rw [scan, if_neg hy, (give_eq h ho).mpr ⟨hok, rfl⟩]

theorem give_error (h : Wf d os) {o : Spec.Line.Opt} (ho : o ∈ os) {p : Parsed} {v : Text} {e : Stop}
    (he : p.give rd (optOf o) v = .error e) : e = .usage := by
  have hn : optOf o ≠ helpOpt := fun e => (h.noHelp o ho).1 (congrArg Opt.long e)
  unfold Parsed.give at he
  rw [if_neg hn] at he
  split at he
  · cases he; rfl
  · split at he
    · cases he
    · cases he; rfl

theorem scan_item_eq (h : Wf d os) {sub : Bool} {i : List Text} {l : Given'} (hi : Item os i l)
    {ws : List Text} {p : Parsed} (hok : Ok rd p l) :
    scan rd d sub none (i ++ ws) p = scan rd d sub none ws (addTo p l) := by
  cases hi with
  | @flag o ho hk =>
    have hs : shape ('-' :: '-' :: o.long.toList) = .long o.long.toList :=
      shape_long.mpr ⟨rfl, (h.noEq o ho).2⟩
    have : p.long rd d o.long.toList = .ok (addTo p [(o, [])], none) := by
      simp only [Parsed.long, splitEq_none (h.noEq o ho).1, find_long h ho, optOf_value.mpr hk,
        (give_eq h ho).mpr ⟨hok, rfl⟩, Except.map]
    rw [List.singleton_append, scan_word_eq (.inl ⟨hs, this⟩)]
  | @eq o v ho hk =>
    have hs : shape ('-' :: '-' :: (o.long.toList ++ '=' :: v)) = .long (o.long.toList ++ '=' :: v) :=
      shape_long.mpr ⟨rfl, by simp⟩
    obtain ⟨k, hk'⟩ := optOf_value_some hk
    have : p.long rd d (o.long.toList ++ '=' :: v) = .ok (addTo p [(o, v)], none) := by
      simp only [Parsed.long, splitEq_some (h.noEq o ho).1, find_long h ho, hk',
        (give_eq h ho).mpr ⟨hok, rfl⟩, Except.map]
    rw [List.singleton_append, scan_word_eq (.inl ⟨hs, this⟩)]
  | @long o v ho hk hv =>
    have hs : shape ('-' :: '-' :: o.long.toList) = .long o.long.toList :=
      shape_long.mpr ⟨rfl, (h.noEq o ho).2⟩
    obtain ⟨k, hk'⟩ := optOf_value_some hk
    have : p.long rd d o.long.toList = .ok (p, some (optOf o)) := by
      simp only [Parsed.long, splitEq_none (h.noEq o ho).1, find_long h ho, hk']
    rw [List.cons_append, scan_word_eq (.inl ⟨hs, this⟩), List.singleton_append,
      scan_want_eq h ho hv hok]
  | @flags s f hf hs0 =>
    have hs : shape ('-' :: s) = .short s :=
      shape_short.mpr ⟨rfl, hs0, by simpa using flags_head h (t := []) hf (by simp)⟩
    have := (shorts_flags (rd := rd) h hf [] p (addTo p l, none)).mpr ⟨hok, by rw [Parsed.shorts]⟩
    rw [List.append_nil] at this
    rw [List.singleton_append, scan_word_eq (.inr ⟨hs, this⟩)]
  | @short s f o c v hf ho hk hc hv =>
    have hs : shape ('-' :: (s ++ [c])) = .short (s ++ [c]) :=
      shape_short.mpr ⟨rfl, by simp, flags_head h hf (short_ne h ho hc [])⟩
    obtain ⟨h1, h2⟩ := Ok.append.mp hok
    have := (shorts_flags (rd := rd) h hf [c] p _).mpr ⟨h1, shorts_want h ho hk hc _⟩
    rw [List.cons_append, scan_word_eq (.inr ⟨hs, this⟩), List.singleton_append, addTo_append,
      scan_want_eq h ho hv h2]
  | @shortEq s f o c v hf ho hk hc =>
    have hs : shape ('-' :: (s ++ c :: '=' :: v)) = .short (s ++ c :: '=' :: v) :=
      shape_short.mpr ⟨rfl, by simp, flags_head h hf (short_ne h ho hc _)⟩
    obtain ⟨h1, h2⟩ := Ok.append.mp hok
    have := (shorts_flags (rd := rd) h hf (c :: '=' :: v) p _).mpr
      ⟨h1, (shorts_value h ho hk hc _ _ (.inl rfl)).mpr ⟨h2, rfl⟩⟩
    rw [List.singleton_append, scan_word_eq (.inr ⟨hs, this⟩), addTo_append]
  | @shortJoined s f o c v hf ho hk hc hv hv' =>
    have hs : shape ('-' :: (s ++ c :: v)) = .short (s ++ c :: v) :=
      shape_short.mpr ⟨rfl, by simp, flags_head h hf (short_ne h ho hc _)⟩
    obtain ⟨h1, h2⟩ := Ok.append.mp hok
    have := (shorts_flags (rd := rd) h hf (c :: v) p _).mpr
      ⟨h1, (shorts_value h ho hk hc _ _ (.inr ⟨rfl, hv, hv'⟩)).mpr ⟨h2, rfl⟩⟩
    rw [List.singleton_append, scan_word_eq (.inr ⟨hs, this⟩), addTo_append]

theorem find_h (h : Wf d os) : d.opts.find? (fun x => x.short == some 'h') = some helpOpt := by
  obtain ⟨x, hx⟩ : ∃ x, d.opts.find? (fun x => x.short == some 'h') = some x := by
    rw [← Option.isSome_iff_exists, List.find?_isSome]
    exact ⟨helpOpt, by rw [h.opts]; simp, by decide⟩
  rcases find_short_inv h hx with rfl | ⟨o, ho, rfl, hc⟩
  · exact hx
  · exact absurd hc (h.noHelp o ho).2.1

theorem find_help (h : Wf d os) : d.opts.find? (fun x => x.long == Name.help) = some helpOpt := by
  obtain ⟨x, hx⟩ : ∃ x, d.opts.find? (fun x => x.long == Name.help) = some x := by
    rw [← Option.isSome_iff_exists, List.find?_isSome]
    exact ⟨helpOpt, by rw [h.opts]; simp, by decide⟩
  rcases find_long_inv h hx with rfl | ⟨o, ho, rfl, hc⟩
  · exact hx
  · exact absurd hc.symm (h.noHelp o ho).1

theorem shorts_h (h : Wf d os) (t : Text) (p : Parsed) :
    p.shorts rd d ('h' :: t) = .error .help := by
  rw [Parsed.shorts, find_h h]
  simp only [show helpOpt.value = none from rfl, give_help]

theorem shorts_flags_error (h : Wf d os) {s : Text} {f : Given'} (hf : Spec.Line.Flags os s f)
    (t : Text) (p : Parsed) (hok : Ok rd p f) :
    p.shorts rd d (s ++ t) = (addTo p f).shorts rd d t := by
  induction hf generalizing p with
  | nil => simp [addTo_nil]
  | @cons o c s l ho hk hc hf ih =>
    rw [List.cons_append, Parsed.shorts, find_short h ho hc]
    have e : ((o, []) :: l : Given') = [(o, [])] ++ l := rfl
    rw [e, Ok.append] at hok
    rw [e, addTo_append]
    simp only [optOf_value.mpr hk, (give_eq h ho).mpr ⟨hok.1, rfl⟩]
    exact ih _ hok.2

theorem scan_helpWord (h : Wf d os) {sub : Bool} {w : Text} {f : Given'} (hw : HelpWord os w f)
    {ws : List Text} {p : Parsed} (hok : Ok rd p f) :
    scan rd d sub none (w :: ws) p = .error .help := by
  rcases hw with ⟨rfl, rfl⟩ | ⟨s, t, hf, rfl⟩
  · refine scan_word_error (.inl ⟨(rfl : _ = Shape.long Name.help), ?_⟩)
    have e1 : (splitEq Name.help).1 = Name.help := rfl
    have e2 : (splitEq Name.help).2 = none := rfl
    unfold Parsed.long
    rw [e1, e2, find_help h]
    simp only [show helpOpt.value = none from rfl, give_help, Except.map]
  · refine scan_word_error (.inr ⟨shape_short.mpr ⟨rfl, by simp, flags_head h hf (by simp)⟩, ?_⟩)
    rw [shorts_flags_error h hf _ _ hok, shorts_h h]

theorem shorts_error (h : Wf d os) {s : Text} {p : Parsed}
    (hy : p.shorts rd d s = .error .help) :
    ∃ s' f t, s = s' ++ 'h' :: t ∧ Spec.Line.Flags os s' f ∧ Ok rd p f := by
  induction s generalizing p with
  | nil => cases hy
  | cons c s ih =>
    rw [Parsed.shorts] at hy
    rcases hf : d.opts.find? (fun o => o.short == some c) with _ | x
    · rw [hf] at hy; cases hy
    · rw [hf] at hy
      rcases find_short_inv h hf with rfl | ⟨o, ho, rfl, hc⟩
      · have hp := List.find?_some hf
        simp only [helpOpt, beq_iff_eq, Option.some.injEq] at hp
        exact ⟨[], [], s, by rw [← hp]; rfl, .nil, Ok.nil p⟩
      · by_cases hk : o.kind = none
        · simp only [optOf_value.mpr hk] at hy
          rcases hg : p.give rd (optOf o) [] with er | p'
          · rw [hg] at hy
            cases hy
            cases give_error h ho hg
          · rw [hg] at hy
            obtain ⟨h1, rfl⟩ := (give_eq h ho).mp hg
            obtain ⟨s', f, t, rfl, hf', hok⟩ := ih hy
            exact ⟨c :: s', _, t, rfl, .cons ho hk hc hf', Ok.append.mpr ⟨h1, hok⟩⟩
        · obtain ⟨k, hk'⟩ := optOf_value_some hk
          simp only [hk'] at hy
          rcases hat : attached s with _ | v
          · rw [hat] at hy; cases hy
          · rw [hat] at hy
            simp only at hy
            rcases hg : p.give rd (optOf o) v with er | p'
            · rw [hg] at hy
              simp only [Except.map, Except.error.injEq] at hy
              subst hy
              cases give_error h ho hg
            · rw [hg] at hy; cases hy

theorem want_error (h : Wf d os) {sub : Bool} {o : Spec.Line.Opt} (ho : o ∈ os) {ws : List Text}
    {p : Parsed} (hx : scan rd d sub (some (optOf o)) ws p = .error .help) :
    ∃ v ws', ws = v :: ws' ∧ ¬ Dashed v ∧ Ok rd p [(o, v)] := by
  rcases ws with _ | ⟨v, ws⟩
  · rw [scan] at hx; cases hx
  · rw [scan] at hx
    split at hx
    · cases hx
    next hv =>
      refine ⟨v, ws, rfl, fun e => hv (hyphen_iff.mpr e), ?_⟩
      rcases hg : p.give rd (optOf o) v with er | p'
      · rw [hg] at hx
        cases hx
        cases give_error h ho hg
      · exact ((give_eq h ho).mp hg).1

/-- A word that begins with a hyphen asks for help, or is an option followed by a word asking for help. -/
theorem scan_help_inv (h : Wf d os) {sub : Bool} {w : Text} {ws : List Text} {p : Parsed}
    (hd : Dashed w) (hn : w ≠ ['-', '-']) (hx : scan rd d sub none (w :: ws) p = .error .help) :
    (∃ f, HelpWord os w f ∧ Ok rd p f) ∨
      ∃ i l ws', w :: ws = i ++ ws' ∧ Item os i l ∧ Ok rd p l := by
  rcases hs : shape w with _ | s | s | _
  · exact absurd (shape_escape.mp hs) hn
  · obtain ⟨rfl, hs0⟩ := shape_long.mp hs
    have hsp := splitEq_inv s
    rcases hf : d.opts.find? (fun o => o.long == (splitEq s).1) with _ | o
    · have : p.long rd d s = .error .usage := by simp only [Parsed.long, hf]
      rw [scan_word_error (.inl ⟨hs, this⟩)] at hx
      cases hx
    · rcases find_long_inv h hf with rfl | ⟨o, ho, rfl, hl⟩
      · rcases hv : (splitEq s).2 with _ | v
        · have hp := List.find?_some hf
          simp only [helpOpt, beq_iff_eq] at hp
          rw [hv] at hsp
          simp only [List.append_nil, ← hp] at hsp
          subst hsp
          exact .inl ⟨[], .inl ⟨rfl, rfl⟩, Ok.nil p⟩
        · have : p.long rd d s = .error .usage := by
            simp only [Parsed.long, hf, hv, show helpOpt.value = none from rfl]
          rw [scan_word_error (.inl ⟨hs, this⟩)] at hx
          cases hx
      · rw [hl] at hsp
        by_cases hk : o.kind = none
        · rcases hv : (splitEq s).2 with _ | v
          · rw [hv] at hsp
            simp only [List.append_nil] at hsp
            rcases hg : p.give rd (optOf o) [] with er | p'
            · have : p.long rd d s = .error er := by
                simp only [Parsed.long, hf, hv, optOf_value.mpr hk, hg, Except.map]
              rw [scan_word_error (.inl ⟨hs, this⟩)] at hx
              cases hx
              cases give_error h ho hg
            · subst hsp
              exact .inr ⟨_, _, ws, rfl, .flag ho hk, ((give_eq h ho).mp hg).1⟩
          · have : p.long rd d s = .error .usage := by
              simp only [Parsed.long, hf, hv, optOf_value.mpr hk]
            rw [scan_word_error (.inl ⟨hs, this⟩)] at hx
            cases hx
        · obtain ⟨k, hk'⟩ := optOf_value_some hk
          rcases hv : (splitEq s).2 with _ | v
          · have : p.long rd d s = .ok (p, some (optOf o)) := by
              simp only [Parsed.long, hf, hv, hk']
            rw [scan_word_eq (.inl ⟨hs, this⟩)] at hx
            rw [hv] at hsp
            simp only [List.append_nil] at hsp
            subst hsp
            obtain ⟨v, ws', rfl, hv, hok⟩ := want_error h ho hx
            exact .inr ⟨_, _, ws', rfl, .long ho hk hv, hok⟩
          · rw [hv] at hsp
            rcases hg : p.give rd (optOf o) v with er | p'
            · have : p.long rd d s = .error er := by
                simp only [Parsed.long, hf, hv, hk', hg, Except.map]
              rw [scan_word_error (.inl ⟨hs, this⟩)] at hx
              cases hx
              cases give_error h ho hg
            · simp only at hsp
              rw [hsp]
              exact .inr ⟨_, _, ws, rfl, .eq ho hk, ((give_eq h ho).mp hg).1⟩
  · obtain ⟨rfl, hs0, _⟩ := shape_short.mp hs
    rcases hy : p.shorts rd d s with er | y
    · rw [scan_word_error (.inr ⟨hs, hy⟩)] at hx
      cases hx
      obtain ⟨s', f, t, rfl, hf, hok⟩ := shorts_error h hy
      exact .inl ⟨f, .inr ⟨s', t, hf, rfl⟩, hok⟩
    · rw [scan_word_eq (.inr ⟨hs, hy⟩)] at hx
      right
      rcases shorts_inv h hy with ⟨h1, f, h2⟩ | ⟨s', f, o', c', h1, h2, h3, h4, h5⟩
      · have := (shorts_flags (rd := rd) h h2 [] p y).mp (by rwa [List.append_nil])
        exact ⟨_, _, ws, rfl, .flags h2 hs0, this.1⟩
      · rcases h5 with ⟨rfl, h5⟩ | ⟨h5, v, rfl | ⟨rfl, h6, h7⟩⟩
        · obtain ⟨hok, hy⟩ := (shorts_flags (rd := rd) h h1 _ p y).mp hy
          rw [shorts_want h h2 h3 h4] at hy
          cases hy
          obtain ⟨v, ws', rfl, hv, hok'⟩ := want_error h h2 hx
          exact ⟨_, _, ws', rfl, .short h1 h2 h3 h4 hv, Ok.append.mpr ⟨hok, hok'⟩⟩
        · obtain ⟨hok, hy⟩ := (shorts_flags (rd := rd) h h1 _ p y).mp hy
          rw [shorts_value h h2 h3 h4 _ _ (.inl rfl)] at hy
          exact ⟨_, _, ws, rfl, .shortEq h1 h2 h3 h4, Ok.append.mpr ⟨hok, hy.1⟩⟩
        · obtain ⟨hok, hy⟩ := (shorts_flags (rd := rd) h h1 _ p y).mp hy
          rw [shorts_value h h2 h3 h4 _ _ (.inr ⟨rfl, h6, h7⟩)] at hy
          exact ⟨_, _, ws, rfl, .shortJoined h1 h2 h3 h4 h6 h7, Ok.append.mpr ⟨hok, hy.1⟩⟩
  · exact absurd hd (shape_word.mp hs)

theorem word_error {p : Parsed} {w : Text} {e : Stop} (h : p.word d w = .error e) : e = .usage := by
  unfold Parsed.word at h
  split at h
  · cases h; rfl
  · split at h
    · cases h
    · cases h; rfl

theorem rest_error {ws : List Text} {p : Parsed} {e : Stop} (h : p.rest d ws = .error e) :
    e = .usage := by
  induction ws generalizing p with
  | nil => cases h
  | cons w ws ih =>
    rw [Parsed.rest] at h
    rcases hw : p.word d w with er | p'
    · rw [hw] at h; cases h; exact word_error hw
    · rw [hw] at h; exact ih h

/-- When the words ask for help. -/
theorem scan_help (h : Wf d os) {sub : Bool} {ws : List Text} {p : Parsed} :
    scan rd d sub none ws p = .error .help ↔
      ∃ l ps, Asks os ws l ps ∧ Ok rd p l ∧ PosOk d p ps ∧ (sub = true → ps = []) := by
  constructor
  · intro hx
    induction hn : ws.length using Nat.strong_induction_on generalizing ws p with
    | _ n ih =>
    rcases ws with _ | ⟨w, ws⟩
    · cases hx
    · by_cases hd : Dashed w
      · by_cases hs : w = ['-', '-']
        · subst hs
          have : shape ['-', '-'] = .escape := rfl
          simp only [scan, this] at hx
          split at hx
          · cases hx
          · rcases hr : p.rest d ws with er | p'
            · rw [hr] at hx
              cases hx
              cases rest_error hr
            · rw [hr] at hx; cases hx
        · rcases scan_help_inv h hd hs hx with ⟨f, hw, hok⟩ | ⟨i, l, ws', e, hi, hok⟩
          · exact ⟨f, [], ⟨[], w, ws, [], f, rfl, .nil, by simp, hw, rfl⟩, hok, .nil, fun _ => rfl⟩
          · rw [e] at hx hn
            rw [scan_item_eq h hi hok] at hx
            have := item_length hi
            rw [List.length_append] at hn
            obtain ⟨l', ps, ⟨ws₁, w', ws₂, l₁, f, rfl, h1, h2, h3, rfl⟩, h4, h5, h6⟩ :=
              ih ws'.length (by omega) hx rfl
            refine ⟨l ++ (l₁ ++ f), ps, ⟨i ++ ws₁, w', ws₂, l ++ l₁, f, by rw [e]; simp,
              Words.item hi h1, ?_, h3, by simp⟩, Ok.append.mpr ⟨hok, h4⟩, h5, h6⟩
            rw [List.mem_append, not_or]
            exact ⟨item_escape h hi, h2⟩
      · simp only [scan, shape_word.mpr hd] at hx
        split at hx
        · cases hx
        next hsub =>
          rcases hw : p.word d w with er | p1
          · rw [hw] at hx
            cases hx
            cases word_error hw
          · rw [hw] at hx
            simp only at hx
            simp only [List.length_cons] at hn
            obtain ⟨l, ps, ⟨ws₁, w', ws₂, l₁, f, rfl, h1, h2, h3, rfl⟩, h4, h5, h6⟩ :=
              ih ws.length (by omega) hx rfl
            obtain ⟨h7, rfl⟩ := word_eq.mp ⟨hw, h5⟩
            refine ⟨_, w :: ps, ⟨w :: ws₁, w', ws₂, l₁, f, rfl, .word hd h1, ?_, h3, rfl⟩, h4, h7,
              fun e => absurd e hsub⟩
            rw [List.mem_cons, not_or]
            exact ⟨fun e => hd (e ▸ ⟨['-'], by simp, rfl⟩), h2⟩
  · rintro ⟨l, ps, ⟨ws₁, w, ws₂, l₁, f, rfl, hw, hs, hh, rfl⟩, hl, hp, hsub⟩
    revert p
    refine Words.induct (C := fun ws l ps => ['-', '-'] ∉ ws → (sub = true → ps = []) →
      ∀ {p : Parsed}, Ok rd p (l ++ f) → PosOk d p ps →
      scan rd d sub none (ws ++ w :: ws₂) p = .error .help) ?_ ?_ ?_ ?_ hw hs hsub
    · intro _ _ p hl _
      exact scan_helpWord h hh hl
    · intro ps hs; simp at hs
    · intro w' ws l ps hd _ ih hs hsub p hl hp
      rw [List.mem_cons, not_or] at hs
      have hsub' : sub = false := by
        rcases sub
        · rfl
        · cases hsub rfl
      rw [List.cons_append]
      simp only [scan, shape_word.mpr hd, hsub', Bool.false_eq_true, if_false]
      obtain ⟨h1, h2⟩ := (word_eq (ps := ps)).mpr ⟨hp, rfl⟩
      rw [h1]
      simp only
      rw [← hsub']
      exact ih hs.2 (fun e => by rw [hsub'] at e; cases e)
        (p := { p with pos := p.pos ++ [w'] }) hl h2
    · intro i ws l l' ps hi _ ih hs hsub p hl hp
      rw [List.mem_append, not_or] at hs
      rw [List.append_assoc] at hl
      obtain ⟨h1, h2⟩ := Ok.append.mp hl
      rw [List.append_assoc, scan_item_eq h hi h1]
      exact ih hs.2 hsub h2 hp

/-! ## Commands -/

theorem map_error {α β : Type} {x : Except Stop α} {f : α → β} {e : Stop} :
    x.map f = .error e ↔ x = .error e := by
  rcases x with e' | a <;> simp [Except.map]

theorem bind_error {α β : Type} {x : Except Stop α} {f : α → Except Stop β}
    (hf : ∀ a, f a ≠ .error .help) : x.bind f = .error .help ↔ x = .error .help := by
  rcases x with e' | a
  · simp [Except.bind]
  · simp [Except.bind, hf a]

theorem subScan_help (h : Wf d os) {ws : List Text} :
    subScan rd d ws = .error .help ↔ ∃ l ps, Asks os ws l ps ∧ Fine rd l ∧ PosOk d ⟨[], []⟩ ps := by
  rw [subScan, map_error, scan_help h]
  simp [Ok]

theorem parseCommand_help {ws : List Text} :
    parseCommand rd ws = .error .help ↔
      ∃ name ws', ws = String.toList name :: ws' ∧ Spec.Line.AsksFor rd name ws' := by
  have e1 : "create".toList = Name.create := by decide +kernel
  have e2 : "insert".toList = Name.insert := by decide +kernel
  have e3 : "check".toList = Name.check := by decide +kernel
  have e4 : "bench".toList = Name.bench := by decide +kernel
  have e5 : "show".toList = Name.show := by decide +kernel
  have e6 : "help".toList = Name.help := by decide +kernel
  have k1 : ∀ p : Parsed, p.create rd ≠ .error .help := by
    intro p; unfold Parsed.create; rcases p.pos with _ | _ <;> simp
  have k2 : ∀ p : Parsed, p.insert ≠ .error .help := by
    intro p; unfold Parsed.insert; rcases p.pos with _ | _ <;> simp
  have k3 : ∀ p : Parsed, p.check ≠ .error .help := by
    intro p; unfold Parsed.check; rcases p.pos with _ | _ <;> simp
  have k4 : ∀ p : Parsed, p.bench rd ≠ .error .help := by
    intro p; unfold Parsed.bench; simp
  have k5 : ∀ p : Parsed, p.show ≠ .error .help := by
    intro p; unfold Parsed.show; rcases p.pos with _ | _ <;> simp
  constructor
  · intro h
    rcases ws with _ | ⟨w, ws⟩
    · cases h
    · rw [parseCommand] at h
      split at h
      next e =>
        rw [bind_error k1, subScan_help wf_create] at h
        obtain ⟨l, ps, h1, h2, h3⟩ := h
        exact ⟨_, ws, by rw [e, ← e1], .create h1 h2 ((posOk_path rfl rfl).mp h3)⟩
      split at h
      next e =>
        rw [bind_error k2, subScan_help wf_insert] at h
        obtain ⟨l, ps, h1, h2, h3⟩ := h
        exact ⟨_, ws, by rw [e, ← e2], .insert h1 h2⟩
      split at h
      next e =>
        rw [bind_error k3, subScan_help wf_check] at h
        obtain ⟨l, ps, h1, h2, h3⟩ := h
        exact ⟨_, ws, by rw [e, ← e3], .check h1 h2⟩
      split at h
      next e =>
        rw [bind_error k4, subScan_help wf_bench] at h
        obtain ⟨l, ps, h1, h2, h3⟩ := h
        exact ⟨_, ws, by rw [e, ← e4], .bench h1 h2 ((posOk_one rfl rfl).mp h3)⟩
      split at h
      next e =>
        rw [bind_error k5, subScan_help wf_show] at h
        obtain ⟨l, ps, h1, h2, h3⟩ := h
        exact ⟨_, ws, by rw [e, ← e5], .show h1 ((posOk_one rfl rfl).mp h3)⟩
      split at h
      next e =>
        rw [Except.error.injEq] at h
        refine ⟨"help", ws, by rw [e, ← e6], ?_⟩
        unfold helpFor at h
        split at h
        · exact .all
        · split at h
          next hm =>
            simp only [← e1, ← e2, ← e3, ← e4, ← e5, ← e6] at hm
            have : ∃ n ∈ ["create", "insert", "check", "bench", "show", "help"],
                String.toList n = _ := List.mem_map.mp hm
            obtain ⟨n, hn, rfl⟩ := this
            exact .one hn
          next => cases h
        · cases h
      · cases h
  · rintro ⟨name, ws, rfl, h⟩
    rw [parseCommand]
    cases h with
    | create h1 h2 h3 =>
      rw [e1, if_pos rfl, bind_error k1, subScan_help wf_create]
      exact ⟨_, _, h1, h2, (posOk_path rfl rfl).mpr h3⟩
    | insert h1 h2 =>
      rw [e2, if_neg (by decide), if_pos rfl, bind_error k2, subScan_help wf_insert]
      exact ⟨_, _, h1, h2, posOk_any rfl rfl⟩
    | check h1 h2 =>
      rw [e3, if_neg (by decide), if_neg (by decide), if_pos rfl, bind_error k3,
        subScan_help wf_check]
      exact ⟨_, _, h1, h2, posOk_any rfl rfl⟩
    | bench h1 h2 h3 =>
      rw [e4, if_neg (by decide), if_neg (by decide), if_neg (by decide), if_pos rfl,
        bind_error k4, subScan_help wf_bench]
      exact ⟨_, _, h1, h2, (posOk_one rfl rfl).mpr h3⟩
    | @«show» ws l ps h1 h3 =>
      rw [e5, if_neg (by decide), if_neg (by decide), if_neg (by decide), if_neg (by decide),
        if_pos rfl, bind_error k5, subScan_help wf_show]
      refine ⟨_, _, h1, ?_, (posOk_one rfl rfl).mpr h3⟩
      obtain ⟨ws₁, w, ws₂, l₁, f, rfl, h4, h5, h6, rfl⟩ := h1
      have e : l₁ = [] := by
        rcases l₁ with _ | ⟨x, _⟩
        · rfl
        · exact absurd (words_mem h4 x (by simp)) (by simp)
      have e' : f = [] := by
        rcases f with _ | ⟨x, _⟩
        · rfl
        · rcases h6 with ⟨_, h6⟩ | ⟨_, _, h6, _⟩
          · cases h6
          · exact absurd (flags_mem h6 x (by simp)) (by simp)
      rw [e, e']
      exact (Ok.nil (rd := rd) ⟨[], []⟩).2
    | all =>
      rw [e6, if_neg (by decide), if_neg (by decide), if_neg (by decide), if_neg (by decide),
        if_neg (by decide), if_pos rfl]
      rfl
    | @one n hn =>
      rw [e6, if_neg (by decide), if_neg (by decide), if_neg (by decide), if_neg (by decide),
        if_neg (by decide), if_pos rfl, helpFor, if_pos]
      rw [← e1, ← e2, ← e3, ← e4, ← e5, ← e6]
      exact List.mem_map_of_mem (f := String.toList) hn

theorem asksFor_word {name : String} {ws : List Text} (h : Spec.Line.AsksFor rd name ws) :
    ¬ Dashed name.toList := by
  rw [← shape_word]
  cases h <;> decide +kernel

theorem parse_help {ws : List Text} :
    parseArgs rd ws = .error .help ↔ Spec.Line.AsksHelp rd ws := by
  rw [parseArgs]
  constructor
  · intro h
    rcases hs : scan rd argsDecl true none ws ⟨[], []⟩ with e | ⟨p, ws'⟩
    · rw [hs] at h
      cases h
      obtain ⟨l, ps, h1, h2, _, h3⟩ := (scan_help wf_args).mp hs
      rw [h3 rfl] at h1
      exact .inl ⟨l, h1, h2.2⟩
    · rw [hs] at h
      simp only at h
      obtain ⟨ws₁, ws₂, l, rfl, hw, hn, hl, _, e⟩ := (scan_before wf_args).mp hs
      cases e
      rcases hc : parseCommand rd ws' with e | c
      · rw [hc] at h
        cases h
        obtain ⟨name, ws'', rfl, hN⟩ := parseCommand_help.mp hc
        exact .inr ⟨ws₁, name, ws'', l, rfl, hw, hn, hl.2, hN⟩
      · rw [hc] at h; cases h
  · rintro (⟨l, h1, h2⟩ | ⟨ws₁, name, ws₂, l, rfl, hw, hn, hl, hN⟩)
    · rw [(scan_help wf_args).mpr ⟨l, [], h1, ⟨by simp, h2⟩, .nil, fun _ => rfl⟩]
    · have hs : scan rd argsDecl true none (ws₁ ++ name.toList :: ws₂) ⟨[], []⟩ =
          .ok (addTo ⟨[], []⟩ l, name.toList :: ws₂) :=
        (scan_before wf_args).mpr ⟨ws₁, name.toList :: ws₂, l, rfl, hw, hn, ⟨by simp, hl⟩,
          by simpa using asksFor_word hN, rfl⟩
      rw [hs]
      simp only
      rw [parseCommand_help.mpr ⟨name, ws₂, rfl, hN⟩]

/-! ## Order -/

theorem words_unique (h : Wf d os) {ws : List Text} {l l' : Given'} {ps ps' : List Text}
    (hw : Words os ws l ps) (hw' : Words os ws l' ps') (hf : Fine rd l) (hf' : Fine rd l') :
    l = l' ∧ ps = ps' := by
  have h0 : Wf ⟨d.opts, none, false⟩ os := ⟨h.opts, h.long, h.short, h.noHelp, h.noEq⟩
  have e1 := (subScan_eq h0).mpr ⟨l, ps, hw, hf, posOk_any rfl rfl, rfl⟩
  have e2 := (subScan_eq h0).mpr ⟨l', ps', hw', hf', posOk_any rfl rfl, rfl⟩
  rw [e1] at e2
  simp only [Except.ok.injEq, Parsed.mk.injEq] at e2
  refine ⟨?_, e2.2⟩
  have e := e2.1
  have m := words_mem hw
  have m' := words_mem hw'
  clear e1 e2 hw hw' hf hf'
  induction l generalizing l' with
  | nil =>
    rcases l' with _ | _
    · rfl
    · cases e
  | cons x l ih =>
    rcases l' with _ | ⟨x', l'⟩
    · cases e
    · simp only [names, List.map_cons, List.cons.injEq, Prod.mk.injEq] at e
      have e1 : x.1 = x'.1 := h.long _ (m x (by simp)) _ (m' x' (by simp))
        (String.toList_injective e.1.1)
      rw [ih e.2 (fun y hy => m y (List.mem_cons_of_mem _ hy))
          (fun y hy => m' y (List.mem_cons_of_mem _ hy)), Prod.ext e1 e.1.2]

theorem fine_perm {l l' : Given'} (hp : l.Perm l') (hf : Fine rd l) : Fine rd l' :=
  ⟨(hp.map _).nodup_iff.mp hf.1, fun o v h => hf.2 o v (hp.mem_iff.mpr h)⟩

theorem value_perm {l l' : Given'} (hp : l.Perm l') {name : String} {D n : Nat}
    (h : Value rd l name D n) : Value rd l' name D n := by
  rcases h with ⟨o, v, k, h, h'⟩ | ⟨h, h'⟩
  · exact .inl ⟨o, v, k, hp.mem_iff.mp h, h'⟩
  · exact .inr ⟨h, fun o v hh => h' o v (hp.mem_iff.mpr hh)⟩

theorem given_perm {l l' : Given'} (hp : l.Perm l') {name : String} :
    Given l name ↔ Given l' name := by
  simp only [Given, hp.mem_iff]

theorem names_perm {name : String} (hn : (name, os) ∈ [("create", Spec.Line.create),
      ("insert", Spec.Line.insert), ("check", Spec.Line.check), ("bench", Spec.Line.bench),
      ("show", [])])
    {ws ws' : List Text} {l l' : Given'} {ps : List Text}
    (hw : Words os ws l ps) (hw' : Words os ws' l' ps) (hp : l.Perm l') (hf : Fine rd l)
    {c : Command} (h : Spec.Line.Names rd name ws c) : Spec.Line.Names rd name ws' c := by
  have hf' := fine_perm hp hf
  cases h with
  | @create ws l₀ f ds o g1 g2 g3 g4 g5 g6 g7 g8 g9 =>
    obtain rfl : os = Spec.Line.create := by simpa using hn
    obtain ⟨rfl, rfl⟩ := words_unique wf_create hw g1 hf g2
    exact .create hw' hf' g3 (value_perm hp g4) (value_perm hp g5) (value_perm hp g6)
      (value_perm hp g7) g8 g9
  | @insert ws l₀ f ds o g1 g2 g3 g4 g5 =>
    obtain rfl : os = Spec.Line.insert := by simpa using hn
    obtain ⟨rfl, rfl⟩ := words_unique wf_insert hw g1 hf g2
    exact .insert hw' hf' (g3.trans (given_perm hp)) g4 g5
  | @check ws l₀ f ds o g1 g2 g3 g4 g5 g6 g7 =>
    obtain rfl : os = Spec.Line.check := by simpa using hn
    obtain ⟨rfl, rfl⟩ := words_unique wf_check hw g1 hf g2
    exact .check hw' hf' (g3.trans (given_perm hp)) (g4.trans (given_perm hp))
      (g5.trans (given_perm hp)) g6 g7
  | @bench ws l₀ f o g1 g2 g3 g4 g5 g6 g7 g8 g9 g10 g11 g12 =>
    obtain rfl : os = Spec.Line.bench := by simpa using hn
    obtain ⟨rfl, rfl⟩ := words_unique wf_bench hw g1 hf g2
    exact .bench hw' hf' g3 (value_perm hp g4)
      (fun n hn => ⟨value_perm hp (g5 n hn).1, (given_perm hp).mp (g5 n hn).2⟩)
      (fun hn => fun hg => g6 hn ((given_perm hp).mpr hg)) (value_perm hp g7) (value_perm hp g8)
      (value_perm hp g9) (value_perm hp g10) (value_perm hp g11) g12
  | @«show» ws f g1 =>
    obtain rfl : os = [] := by simpa using hn
    obtain ⟨rfl, rfl⟩ := words_unique wf_show hw g1 hf ⟨by simp, by simp⟩
    rw [List.nil_perm] at hp
    subst hp
    exact .show hw'

/-! ## Spelling -/

theorem exists_decimal (n : Nat) : ∃ s, Decimal s n := by
  by_cases h : n = 0
  · exact ⟨['0'], by simp, by decide, by rw [h]; rfl⟩
  · refine ⟨((Nat.digits 10 n).map fun d => Char.ofNat (48 + d)).reverse, ?_, ?_, ?_⟩
    · simpa using Nat.digits_ne_nil_iff_ne_zero.mpr h
    · intro c hc
      simp only [List.mem_reverse, List.mem_map] at hc
      obtain ⟨x, hx, rfl⟩ := hc
      have := Nat.digits_lt_base (by decide : 1 < 10) hx
      interval_cases x <;> decide
    · rw [List.reverse_reverse, List.map_map]
      have : (Nat.digits 10 n).map ((fun c : Char => c.toNat - 48) ∘ fun d => Char.ofNat (48 + d)) =
          Nat.digits 10 n := by
        conv_rhs => rw [← List.map_id (Nat.digits 10 n)]
        refine List.map_congr_left fun x hx => ?_
        have := Nat.digits_lt_base (by decide : 1 < 10) hx
        interval_cases x <;> decide
      rw [this, Nat.ofDigits_digits]

/-- Every number has a text. -/
theorem exists_reads {rd : ReadF64} {n : Nat} :
    (n < 2 ^ 64 → ∃ s, Spec.Line.Reads rd .usize s n) ∧
    (n < 2 ^ 32 → ∃ s, Spec.Line.Reads rd .u32 s n) ∧
    (n < 2 ^ 8 → ∃ s, Spec.Line.Reads rd .u8 s n) := by
  obtain ⟨s, hs⟩ := exists_decimal n
  exact ⟨fun h => ⟨s, .inl hs, h⟩, fun h => ⟨s, .inl ⟨.inl hs, h⟩⟩, fun h => ⟨s, .inl ⟨.inl hs, h⟩⟩⟩

/-- Options with values, spelled `--name=value`. -/
theorem words_eqs {os : List Spec.Line.Opt} {l : List (Spec.Line.Opt × Text)}
    (hl : ∀ x ∈ l, x.1 ∈ os ∧ x.1.kind ≠ none) {ws : List Text} {l' : List (Spec.Line.Opt × Text)}
    {ps : List Text} (h : Words os ws l' ps) :
    Words os (l.map (fun x => '-' :: '-' :: (x.1.long.toList ++ '=' :: x.2)) ++ ws) (l ++ l') ps := by
  induction l with
  | nil => exact h
  | cons x l ih =>
    exact .eq (hl x (by simp)).1 (hl x (by simp)).2 (ih fun y hy => hl y (List.mem_cons_of_mem _ hy))

theorem words_flags {os : List Spec.Line.Opt} {l : List Spec.Line.Opt}
    (hl : ∀ x ∈ l, x ∈ os ∧ x.kind = none) {ws : List Text} {l' : List (Spec.Line.Opt × Text)}
    {ps : List Text} (h : Words os ws l' ps) :
    Words os (l.map (fun x => '-' :: '-' :: x.long.toList) ++ ws) (l.map (·, []) ++ l') ps := by
  induction l with
  | nil => exact h
  | cons x l ih =>
    exact .flag (hl x (by simp)).1 (hl x (by simp)).2
      (ih fun y hy => hl y (List.mem_cons_of_mem _ hy))

theorem given_map {l : List (Spec.Line.Opt × Text)} {name : String} :
    Spec.Line.Given l name ↔ name ∈ l.map (·.1.long) := by
  simp only [Spec.Line.Given, List.mem_map, Prod.exists]

theorem exists_create {rd : ReadF64} {o : Create} (h : Spec.Line.Spellable rd (.create o)) :
    ∃ ws, Spec.Line.Names rd "create" ws (.create o) := by
  obtain ⟨hf, p, hp⟩ := h
  obtain ⟨a, ha⟩ := (exists_reads (rd := rd)).2.2 o.version.isLt
  obtain ⟨b, hb⟩ := (exists_reads (rd := rd)).1 o.capacity.isLt
  obtain ⟨c, hc⟩ := (exists_reads (rd := rd)).2.2 o.optimize.isLt
  have hp' : Spec.Line.Reads rd .f64 p o.probability.toNat := ⟨_, hp, rfl⟩
  have hw := words_eqs (os := Spec.Line.create) (l := [(⟨none, "version", some .u8⟩, a),
    (⟨some 'c', "capacity", some .usize⟩, b), (⟨some 'p', "probability", some .f64⟩, p),
    (⟨some 'O', "opt-lvl", some .u8⟩, c)]) (by simp [Spec.Line.create])
    (.stop (o.file.toList :: o.dataset.map String.toList))
  refine ⟨_, .create hw ⟨by simp, ?_⟩ (by simpa using hf) 
    (.inl ⟨⟨none, "version", some .u8⟩, a, _, ?_, rfl, rfl, ha⟩)
    (.inl ⟨⟨some 'c', "capacity", some .usize⟩, b, _, ?_, rfl, rfl, hb⟩)
    (.inl ⟨⟨some 'p', "probability", some .f64⟩, p, _, ?_, rfl, rfl, hp'⟩)
    (.inl ⟨⟨some 'O', "opt-lvl", some .u8⟩, c, _, ?_, rfl, rfl, hc⟩) (by simp) (by simp [Function.comp_def])⟩
  · intro x v hx k hk
    simp only [List.append_nil, List.mem_cons, List.not_mem_nil, or_false, Prod.mk.injEq] at hx
    rcases hx with ⟨rfl, rfl⟩ | ⟨rfl, rfl⟩ | ⟨rfl, rfl⟩ | ⟨rfl, rfl⟩ <;> cases hk
    exacts [⟨_, ha⟩, ⟨_, hb⟩, ⟨_, hp'⟩, ⟨_, hc⟩]
  all_goals simp

theorem exists_insert {rd : ReadF64} (o : Insert) :
    ∃ ws, Spec.Line.Names rd "insert" ws (.insert o) := by
  have hw := words_flags (os := Spec.Line.insert)
    (l := if o.stdin then [⟨none, "stdin", none⟩] else []) (by split <;> simp [Spec.Line.insert])
    (.stop (o.file.toList :: o.inputs.map String.toList))
  refine ⟨_, .insert hw ⟨?_, ?_⟩ ?_ (by simp) (by simp [Function.comp_def])⟩
  · split <;> simp
  · split <;> simp
  · rcases o with ⟨_ | _, _, _⟩ <;> simp [given_map]

theorem fine_flags {rd : ReadF64} {l : List Spec.Line.Opt} (hl : ∀ x ∈ l, x.kind = none) :
    ∀ o v, (o, v) ∈ l.map (·, ([] : Text)) ++ [] → ∀ k, o.kind = some k →
      ∃ n, Spec.Line.Reads rd k v n := by
  intro o v h k hk
  simp only [List.append_nil, List.mem_map, Prod.mk.injEq] at h
  obtain ⟨x, hx, rfl, -⟩ := h
  rw [hl x hx] at hk
  cases hk

theorem exists_check {rd : ReadF64} (o : Check) :
    ∃ ws, Spec.Line.Names rd "check" ws (.check o) := by
  obtain ⟨l, hl⟩ : ∃ l : List Spec.Line.Opt, l = (if o.stdin then [⟨none, "stdin", none⟩] else []) ++
      ((if o.silent then [⟨none, "silent", none⟩] else []) ++
      (if o.verify then [⟨none, "verify", none⟩] else [])) := ⟨_, rfl⟩
  have h : ∀ x ∈ l, x ∈ Spec.Line.check ∧ x.kind = none := by
    rcases o with ⟨_ | _, _ | _, _ | _, _, _⟩ <;> simp [hl, Spec.Line.check]
  have hw := words_flags h (.stop (o.file.toList :: o.inputs.map String.toList))
  refine ⟨_, .check hw ⟨?_, fine_flags fun x hx => (h x hx).2⟩ ?_ ?_ ?_ (by simp)
    (by simp [Function.comp_def])⟩ <;>
    rcases o with ⟨_ | _, _ | _, _ | _, _, _⟩ <;> simp [hl, given_map]

theorem exists_bench {rd : ReadF64} {o : Benchmark} (h : Spec.Line.Spellable rd (.bench o)) :
    ∃ ws, Spec.Line.Names rd "bench" ws (.bench o) := by
  obtain ⟨ht, hr, ⟨p, hp⟩, q, hq⟩ := h
  obtain ⟨a, ha⟩ := (exists_reads (rd := rd)).1 o.sizeMb.isLt
  obtain ⟨b, hb⟩ := (exists_reads (rd := rd)).2.1 hr
  obtain ⟨c, hc⟩ := (exists_reads (rd := rd)).2.2 o.version.isLt
  obtain ⟨d, hd⟩ := (exists_reads (rd := rd)).2.2 o.opt.isLt
  have hp' : Spec.Line.Reads rd .f64 p o.fpTol.toNat := ⟨_, hp, rfl⟩
  have hq' : Spec.Line.Reads rd .f64 q o.fpp.toNat := ⟨_, hq, rfl⟩
  obtain ⟨t, ht⟩ : ∃ t : List Text, (∀ n, o.testSize = some n → ∃ e, t = [e] ∧
      Spec.Line.Reads rd .usize e n) ∧ (o.testSize = none → t = []) := by
    rcases hn : o.testSize with _ | n
    · exact ⟨[], by simp, by simp⟩
    · obtain ⟨e, he⟩ := (exists_reads (rd := rd)).1 (ht n hn)
      exact ⟨[e], fun m hm => ⟨e, rfl, by cases hm; exact he⟩, by simp⟩
  have hw := words_eqs (os := Spec.Line.bench) (l := [(⟨some 's', "size-mb", some .usize⟩, a),
    (⟨some 'r', "runs", some .u32⟩, b), (⟨some 'f', "fp-tol", some .f64⟩, p),
    (⟨some 'v', "version", some .u8⟩, c), (⟨none, "fpp", some .f64⟩, q),
    (⟨some 'O', "opt", some .u8⟩, d)]) (by simp [Spec.Line.bench])
    (words_eqs (os := Spec.Line.bench) (l := t.map (⟨none, "test-size", some .usize⟩, ·))
      (by simp [Spec.Line.bench]) (.stop (o.file.toList.map String.toList)))
  have hts : ∀ x ∈ t, ∃ n, Spec.Line.Reads rd .usize x n := by
    intro x hx
    rcases hn : o.testSize with _ | n
    · rw [ht.2 hn] at hx; cases hx
    · obtain ⟨e, h1, h2⟩ := ht.1 n hn
      rw [h1, List.mem_singleton] at hx
      exact ⟨n, hx ▸ h2⟩
  refine ⟨_, .bench hw ⟨?_, ?_⟩ ?_
    (.inl ⟨⟨some 's', "size-mb", some .usize⟩, a, _, ?_, rfl, rfl, ha⟩) ?_ ?_
    (.inl ⟨⟨some 'r', "runs", some .u32⟩, b, _, ?_, rfl, rfl, hb⟩)
    (.inl ⟨⟨some 'f', "fp-tol", some .f64⟩, p, _, ?_, rfl, rfl, hp'⟩)
    (.inl ⟨⟨some 'v', "version", some .u8⟩, c, _, ?_, rfl, rfl, hc⟩)
    (.inl ⟨⟨none, "fpp", some .f64⟩, q, _, ?_, rfl, rfl, hq'⟩)
    (.inl ⟨⟨some 'O', "opt", some .u8⟩, d, _, ?_, rfl, rfl, hd⟩) ?_⟩
  · rcases hn : o.testSize with _ | n
    · rw [ht.2 hn]; simp
    · obtain ⟨e, h1, -⟩ := ht.1 n hn
      rw [h1]; simp
  · intro x v hx k hk
    simp only [List.append_nil, List.mem_cons, List.mem_append, List.not_mem_nil, or_false,
      Prod.mk.injEq, List.mem_map] at hx
    rcases hx with (⟨rfl, rfl⟩ | ⟨rfl, rfl⟩ | ⟨rfl, rfl⟩ | ⟨rfl, rfl⟩ | ⟨rfl, rfl⟩ | ⟨rfl, rfl⟩) |
      ⟨y, hy, rfl, rfl⟩ <;> cases hk
    exacts [⟨_, ha⟩, ⟨_, hb⟩, ⟨_, hp'⟩, ⟨_, hc⟩, ⟨_, hq'⟩, ⟨_, hd⟩, hts _ hy]
  · rcases o.file with _ | _ <;> simp
  · simp
  · intro n hn
    obtain ⟨e, h1, h2⟩ := ht.1 n hn
    refine ⟨.inl ⟨⟨none, "test-size", some .usize⟩, e, _, ?_, rfl, rfl, h2⟩,
      ⟨none, "test-size", some .usize⟩, e, ?_, rfl⟩ <;> simp [h1]
  · intro hn
    rw [ht.2 hn]
    simp [given_map]
  all_goals simp

theorem exists_names {rd : ReadF64} {c : Command} (h : Spec.Line.Spellable rd c) :
    ∃ name ws, Spec.Line.Names rd name ws c := by
  cases c with
  | create o => exact ⟨_, exists_create h⟩
  | insert o => exact ⟨_, exists_insert o⟩
  | check o => exact ⟨_, exists_check o⟩
  | bench o => exact ⟨_, exists_bench h⟩
  | «show» f =>
    have := Spec.Line.Names.show (rd := rd) (.stop [f.toList])
    rw [String.ofList_toList] at this
    exact ⟨_, _, this⟩

/-- Every meaning has a spelling. -/
theorem exists_line {rd : ReadF64} {v : Bool} {j : Nat} {c : Command} (hj : j < 2 ^ 64)
    (hc : Spec.Line.Spellable rd c) : ∃ ws, Spec.Line.Means rd ws v j c := by
  obtain ⟨name, ws, hN⟩ := exists_names hc
  obtain ⟨s, hs⟩ := (exists_reads (rd := rd)).1 hj
  have hw := words_flags (os := Spec.Line.before)
    (l := if v then [⟨some 'v', "verbose", none⟩] else []) (by split <;> simp [Spec.Line.before])
    (words_eqs (os := Spec.Line.before) (l := [(⟨some 'j', "jobs", some .usize⟩, s)])
      (by simp [Spec.Line.before]) .nil)
  refine ⟨_, _, name, ws, _, rfl, hw, ?_, ⟨?_, ?_⟩, ?_,
    .inl ⟨⟨some 'j', "jobs", some .usize⟩, s, _, ?_, rfl, rfl, hs⟩, hN⟩
  · cases v <;> simp
  · cases v <;> simp
  · intro x t hx k hk
    cases v <;> simp at hx
    · obtain ⟨rfl, rfl⟩ := hx
      cases hk
      exact ⟨_, hs⟩
    · rcases hx with ⟨rfl, rfl⟩ | ⟨rfl, rfl⟩ <;> cases hk
      exact ⟨_, hs⟩
  · cases v <;> simp [given_map]
  · simp

end Line
end Cli
end Poppy

import Verif.Model.Args
import Verif.SpecArgs

/-!
# Lemmas about the command line parser
-/

namespace Poppy
namespace Cli
namespace Line

open Spec.Line (Words Dashed Reads Decimal Natural Fine Value Given)

def kindOf : Spec.Line.Kind → Kind
  | .usize => .usize
  | .u8 => .u8
  | .u32 => .u32
  | .f64 => .f64

def optOf (o : Spec.Line.Opt) : Opt := ⟨o.short, o.long.toList, o.kind.map kindOf⟩

/-- The declared options can be told apart. -/
structure Wf (d : Decl) (os : List Spec.Line.Opt) : Prop where
  opts : d.opts = os.map optOf ++ [helpOpt]
  long : ∀ o ∈ os, ∀ o' ∈ os, o.long = o'.long → o = o'
  short : ∀ o ∈ os, ∀ o' ∈ os, ∀ c, o.short = some c → o'.short = some c → o = o'
  noHelp : ∀ o ∈ os, o.long.toList ≠ Name.help ∧ o.short ≠ some 'h' ∧ o.short ≠ some '-'
  noEq : ∀ o ∈ os, '=' ∉ o.long.toList ∧ o.long.toList ≠ []

theorem wf_args : Wf argsDecl Spec.Line.before := by
  constructor <;> decide +kernel
theorem wf_create : Wf createDecl Spec.Line.create := by
  constructor <;> decide +kernel
theorem wf_insert : Wf insertDecl Spec.Line.insert := by
  constructor <;> decide +kernel
theorem wf_check : Wf checkDecl Spec.Line.check := by
  constructor <;> decide +kernel
theorem wf_bench : Wf benchDecl Spec.Line.bench := by
  constructor <;> decide +kernel
theorem wf_show : Wf showDecl [] := by
  constructor <;> decide +kernel

variable {rd : ReadF64} {d : Decl} {os : List Spec.Line.Opt}

theorem find_long (h : Wf d os) {o : Spec.Line.Opt} (ho : o ∈ os) :
    d.opts.find? (fun x => x.long == o.long.toList) = some (optOf o) := by
  obtain ⟨x, hx⟩ : ∃ x, d.opts.find? (fun x => x.long == o.long.toList) = some x := by
    rw [← Option.isSome_iff_exists, List.find?_isSome]
    exact ⟨optOf o, by rw [h.opts]; simp only [List.mem_append, List.mem_map]; exact Or.inl ⟨o, ho, rfl⟩,
      by simp [optOf]⟩
  have hm := List.mem_of_find?_eq_some hx
  have hp := List.find?_some hx
  simp only [beq_iff_eq] at hp
  rw [h.opts] at hm
  simp only [List.mem_append, List.mem_map, List.mem_singleton] at hm
  rcases hm with ⟨o', ho', rfl⟩ | rfl
  · rw [hx, h.long o' ho' o ho (String.toList_injective hp)]
  · exact absurd hp.symm (h.noHelp o ho).1

theorem find_long_inv (h : Wf d os) {s : Text} {x : Opt}
    (hx : d.opts.find? (fun x => x.long == s) = some x) :
    x = helpOpt ∨ ∃ o ∈ os, x = optOf o ∧ s = o.long.toList := by
  have hm := List.mem_of_find?_eq_some hx
  have hp := List.find?_some hx
  simp only [beq_iff_eq] at hp
  rw [h.opts] at hm
  simp only [List.mem_append, List.mem_map, List.mem_singleton] at hm
  rcases hm with ⟨o', ho', rfl⟩ | rfl
  · exact .inr ⟨o', ho', rfl, hp.symm⟩
  · exact .inl rfl

theorem find_short (h : Wf d os) {o : Spec.Line.Opt} (ho : o ∈ os) {c : Char} (hc : o.short = some c) :
    d.opts.find? (fun x => x.short == some c) = some (optOf o) := by
  obtain ⟨x, hx⟩ : ∃ x, d.opts.find? (fun x => x.short == some c) = some x := by
    rw [← Option.isSome_iff_exists, List.find?_isSome]
    exact ⟨optOf o, by rw [h.opts]; simp only [List.mem_append, List.mem_map]; exact Or.inl ⟨o, ho, rfl⟩,
      by simp [optOf, hc]⟩
  have hm := List.mem_of_find?_eq_some hx
  have hp := List.find?_some hx
  simp only [beq_iff_eq] at hp
  rw [h.opts] at hm
  simp only [List.mem_append, List.mem_map, List.mem_singleton] at hm
  rcases hm with ⟨o', ho', rfl⟩ | rfl
  · rw [hx, h.short o' ho' o ho c hp hc]
  · exact absurd (hc.trans hp.symm) (h.noHelp o ho).2.1

theorem find_short_inv (h : Wf d os) {c : Char} {x : Opt}
    (hx : d.opts.find? (fun x => x.short == some c) = some x) :
    x = helpOpt ∨ ∃ o ∈ os, x = optOf o ∧ o.short = some c := by
  have hm := List.mem_of_find?_eq_some hx
  have hp := List.find?_some hx
  simp only [beq_iff_eq] at hp
  rw [h.opts] at hm
  simp only [List.mem_append, List.mem_map, List.mem_singleton] at hm
  rcases hm with ⟨o', ho', rfl⟩ | rfl
  · exact .inr ⟨o', ho', rfl, hp⟩
  · exact .inl rfl

/-! ## Numbers -/

theorem readDigits_fold (s : Text) (n : Nat) :
    s.foldl (fun n c => 10 * n + (c.toNat - '0'.toNat)) n =
      Nat.ofDigits 10 (s.reverse.map fun c => c.toNat - 48) + 10 ^ s.length * n := by
  induction s generalizing n with
  | nil => simp
  | cons c s ih =>
    rw [List.foldl_cons, ih, List.reverse_cons, List.map_append, Nat.ofDigits_append]
    have : '0'.toNat = 48 := rfl
    simp only [List.map_cons, List.map_nil, Nat.ofDigits_singleton, List.length_map,
      List.length_reverse, List.length_cons, this, pow_succ]
    ring

theorem readDigits_eq {s : Text} {n : Nat} : readDigits s = some n ↔ Decimal s n := by
  unfold readDigits Decimal
  rw [readDigits_fold s 0]
  by_cases hs : s = []
  · simp [hs]
  · by_cases hd : s.all Char.isDigit = true
    · rw [if_neg (by simp [hs, hd])]
      have : ∀ c ∈ s, c.isDigit = true := by simpa using hd
      simp only [Option.some.injEq, Nat.mul_zero, Nat.add_zero]
      exact ⟨fun e => ⟨hs, this, e.symm⟩, fun e => e.2.2.symm⟩
    · rw [if_pos (Or.inr hd)]
      simp only [reduceCtorEq, false_iff]
      rintro ⟨_, h, _⟩
      exact hd (by simpa using h)

theorem decimal_unique {s : Text} {n n' : Nat} (h : Decimal s n) (h' : Decimal s n') : n = n' :=
  h.2.2.trans h'.2.2.symm

theorem decimal_head {s : Text} {n : Nat} {c : Char} (h : Decimal (c :: s) n) : c.isDigit = true :=
  h.2.1 c (by simp)

theorem plus_digits {s : Text} {n : Nat} :
    readNatural s = some n ↔ Natural s n := by
  unfold readNatural Natural
  split
  next s =>
    rw [readDigits_eq]
    constructor
    · exact fun h => .inr ⟨s, rfl, h⟩
    · rintro (h | ⟨s', e, h⟩)
      · exact absurd (decimal_head h) (by decide)
      · cases e; exact h
  next hne =>
    rw [readDigits_eq]
    constructor
    · exact .inl
    · rintro (h | ⟨s', e, h⟩)
      · exact h
      · exact absurd e (hne s')

theorem readUsize_eq {s : Text} {x : U64} :
    readUsize s = some x ↔ Natural s x.toNat := by
  unfold readUsize
  rcases hq : readNatural s with _ | n
  · simp only [reduceCtorEq, false_iff]
    intro h
    rw [← plus_digits, hq] at h
    cases h
  · simp only
    have hn := plus_digits.mp hq
    have hu : ∀ m, Natural s m → n = m := fun m h => by
      rw [← plus_digits, hq] at h; cases h; rfl
    by_cases hl : n < 2 ^ 64
    · rw [if_pos hl]
      constructor
      · intro e; cases e; rw [BitVec.toNat_ofNat, Nat.mod_eq_of_lt hl]; exact hn
      · intro h; rw [hu _ h]; simp
    · rw [if_neg hl]
      simp only [reduceCtorEq, false_iff]
      intro h
      exact hl (by rw [hu _ h]; exact x.isLt)

theorem readRanged_eq {m : Nat} {s : Text} {n : Nat} :
    readRanged m s = some n ↔
      (Natural s n ∧ n ≤ m) ∨ (n = 0 ∧ ∃ s', s = '-' :: s' ∧ Decimal s' 0) := by
  unfold readRanged Natural
  split
  next s =>
    simp only [Option.filter_eq_some_iff, readDigits_eq, decide_eq_true_eq]
    constructor
    · rintro ⟨h, hl⟩; exact .inl ⟨.inr ⟨s, rfl, h⟩, hl⟩
    · rintro (⟨h | ⟨s', e, h⟩, hl⟩ | ⟨_, s', e, h⟩)
      · exact absurd (decimal_head h) (by decide)
      · cases e; exact ⟨h, hl⟩
      · cases e
  next s =>
    simp only [Option.filter_eq_some_iff, readDigits_eq, decide_eq_true_eq]
    constructor
    · rintro ⟨h, rfl⟩; exact .inr ⟨rfl, s, rfl, h⟩
    · rintro (⟨h | ⟨s', e, h⟩, hl⟩ | ⟨rfl, s', e, h⟩)
      · exact absurd (decimal_head h) (by decide)
      · cases e
      · cases e; exact ⟨h, rfl⟩
  next hp hm =>
    simp only [Option.filter_eq_some_iff, readDigits_eq, decide_eq_true_eq]
    constructor
    · rintro ⟨h, hl⟩; exact .inl ⟨.inl h, hl⟩
    · rintro (⟨h | ⟨s', e, h⟩, hl⟩ | ⟨_, s', e, h⟩)
      · exact ⟨h, hl⟩
      · exact absurd e (hp s')
      · exact absurd e (hm s')

theorem accepts_iff {k : Spec.Line.Kind} {v : Text} :
    (kindOf k).accepts rd v = true ↔ ∃ n, Reads rd k v n := by
  cases k <;> simp only [kindOf, Kind.accepts, Option.isSome_iff_exists, Reads]
  · constructor
    · rintro ⟨x, h⟩; exact ⟨x.toNat, readUsize_eq.mp h, x.isLt⟩
    · rintro ⟨n, h, hl⟩
      exact ⟨BitVec.ofNat 64 n, readUsize_eq.mpr (by
        rwa [BitVec.toNat_ofNat, Nat.mod_eq_of_lt hl])⟩
  · constructor
    · rintro ⟨x, h⟩; refine ⟨x, ?_⟩
      rw [readRanged_eq] at h
      rcases h with ⟨h, hl⟩ | h
      · exact .inl ⟨h, by omega⟩
      · exact .inr h
    · rintro ⟨n, h⟩; refine ⟨n, readRanged_eq.mpr ?_⟩
      rcases h with ⟨h, hl⟩ | h
      · exact .inl ⟨h, by omega⟩
      · exact .inr h
  · constructor
    · rintro ⟨x, h⟩; refine ⟨x, ?_⟩
      rw [readRanged_eq] at h
      rcases h with ⟨h, hl⟩ | h
      · exact .inl ⟨h, by omega⟩
      · exact .inr h
    · rintro ⟨n, h⟩; refine ⟨n, readRanged_eq.mpr ?_⟩
      rcases h with ⟨h, hl⟩ | h
      · exact .inl ⟨h, by omega⟩
      · exact .inr h
  · constructor
    · rintro ⟨x, h⟩; exact ⟨x.toNat, x, h, rfl⟩
    · rintro ⟨n, x, h, _⟩; exact ⟨x, h⟩

/-! ## Giving options -/

abbrev Given' := List (Spec.Line.Opt × Text)

def names (l : Given') : List (Text × Text) := l.map fun x => (x.1.long.toList, x.2)

def addTo (p : Parsed) (l : Given') : Parsed := { p with set := p.set ++ names l }

/-- The options can be given now. -/
def Ok (rd : ReadF64) (p : Parsed) (l : Given') : Prop :=
  (∀ x ∈ l, x.1.long.toList ∉ p.set.map (·.1)) ∧ Fine rd l

theorem addTo_nil (p : Parsed) : addTo p [] = p := by simp [addTo, names]

theorem addTo_append (p : Parsed) (l l' : Given') : addTo p (l ++ l') = addTo (addTo p l) l' := by
  simp [addTo, names]

theorem Ok.nil (p : Parsed) : Ok rd p [] := by
  constructor
  · simp
  · constructor <;> simp

theorem Ok.append {p : Parsed} {l l' : Given'} :
    Ok rd p (l ++ l') ↔ Ok rd p l ∧ Ok rd (addTo p l) l' := by
  have key : (∀ x ∈ l', x.1.long.toList ∉ (addTo p l).set.map (·.1)) ↔
      (∀ x ∈ l', x.1.long.toList ∉ p.set.map (·.1)) ∧
        ∀ x ∈ l', x.1.long ∉ l.map (·.1.long) := by
    have e : ∀ t : String, t.toList ∈ (addTo p l).set.map (·.1) ↔
        t.toList ∈ p.set.map (·.1) ∨ t ∈ l.map (·.1.long) := by
      intro t
      have : (addTo p l).set.map (·.1) = p.set.map (·.1) ++ l.map (·.1.long.toList) := by
        simp [addTo, names, Function.comp_def]
      rw [this, List.mem_append]
      refine or_congr Iff.rfl ?_
      simp only [List.mem_map]
      constructor
      · rintro ⟨a, ha, hh⟩; exact ⟨a, ha, String.toList_injective hh⟩
      · rintro ⟨a, ha, hh⟩; exact ⟨a, ha, by rw [hh]⟩
    simp only [e, not_or]
    exact ⟨fun h => ⟨fun x hx => (h x hx).1, fun x hx => (h x hx).2⟩,
      fun h x hx => ⟨h.1 x hx, h.2 x hx⟩⟩
  unfold Ok Fine
  rw [key]
  simp only [List.mem_append, List.map_append, List.nodup_append]
  constructor
  · rintro ⟨h1, ⟨h2, h3, h4⟩, h5⟩
    refine ⟨⟨fun x hx => h1 x (.inl hx), h2, fun o v h => h5 o v (.inl h)⟩,
      ⟨fun x hx => h1 x (.inr hx), ?_⟩, h3, fun o v h => h5 o v (.inr h)⟩
    intro x hx hc
    exact h4 _ hc _ (List.mem_map_of_mem hx) rfl
  · rintro ⟨⟨h1, h2, h3⟩, ⟨h4, h5⟩, h6, h7⟩
    refine ⟨?_, ⟨h2, h6, ?_⟩, ?_⟩
    · rintro x (hx | hx)
      · exact h1 x hx
      · exact h4 x hx
    · intro a ha b hb e
      subst e
      obtain ⟨x, hx, rfl⟩ := List.mem_map.mp hb
      exact h5 x hx ha
    · rintro o v (h | h)
      · exact h3 o v h
      · exact h7 o v h

theorem give_eq (h : Wf d os) {o : Spec.Line.Opt} (ho : o ∈ os) {p p' : Parsed} {v : Text} :
    p.give rd (optOf o) v = .ok p' ↔ Ok rd p [(o, v)] ∧ p' = addTo p [(o, v)] := by
  have hn : optOf o ≠ helpOpt := fun e => (h.noHelp o ho).1 (congrArg Opt.long e)
  unfold Parsed.give
  rw [if_neg hn]
  have hk : (optOf o).accepts rd v = true ↔
      ∀ k, o.kind = some k → ∃ n, Reads rd k v n := by
    unfold Opt.accepts optOf
    rcases o.kind with _ | k
    · simp
    · simp only [Option.map_some, accepts_iff, Option.some.injEq]
      exact ⟨fun h k' e => e ▸ h, fun h => h k rfl⟩
  have hok : Ok rd p [(o, v)] ↔ (optOf o).long ∉ p.set.map (·.1) ∧
      ∀ k, o.kind = some k → ∃ n, Reads rd k v n := by
    unfold Ok Fine
    simp only [List.mem_singleton, Prod.mk.injEq]
    constructor
    · rintro ⟨h1, _, h2⟩; exact ⟨h1 _ rfl, h2 o v ⟨rfl, rfl⟩⟩
    · rintro ⟨h1, h2⟩
      refine ⟨?_, by simp, ?_⟩
      · rintro x rfl; exact h1
      · rintro o' v' ⟨rfl, rfl⟩; exact h2
  rw [hok]
  by_cases hi : (optOf o).long ∈ p.set.map (·.1)
  · rw [if_pos hi]
    simp [hi]
  · rw [if_neg hi]
    by_cases ha : (optOf o).accepts rd v = true
    · rw [if_pos ha]
      simp only [Except.ok.injEq]
      constructor
      · intro e; exact ⟨⟨hi, hk.mp ha⟩, e.symm⟩
      · rintro ⟨_, e⟩; exact e.symm
    · rw [if_neg ha]
      simp only [reduceCtorEq, false_iff]
      rintro ⟨⟨_, hh⟩, _⟩
      exact ha (hk.mpr hh)

theorem give_help {p : Parsed} {v : Text} : p.give rd helpOpt v = .error .help := by
  unfold Parsed.give
  rw [if_pos rfl]

/-! ## Words -/

theorem hyphen_iff {w : Text} : hyphen w = true ↔ Dashed w := by
  unfold hyphen Dashed
  split
  next c s => simp
  next hne =>
    simp only [Bool.false_eq_true, false_iff]
    rintro ⟨s, hs, rfl⟩
    rcases s with _ | ⟨c, s⟩
    · exact hs rfl
    · exact hne c s rfl

theorem shape_cons (c c' : Char) (s : Text) : shape (c :: c' :: s) =
    if c = '-' then if c' = '-' then if s = [] then .escape else .long s else .short (c' :: s)
    else .word := by
  unfold shape
  split
  next e => cases e; rfl
  next s' h e => cases e; rw [if_pos rfl, if_pos rfl, if_neg (fun e => h (by rw [e]))]
  next h1 h2 e => cases e; rw [if_pos rfl, if_neg h2]
  next h1 h2 h3 => rw [if_neg (fun e => h3 c' s (by rw [e]))]

theorem shape_word {w : Text} : shape w = .word ↔ ¬ Dashed w := by
  unfold Dashed
  rcases w with _ | ⟨c, _ | ⟨c', s⟩⟩
  · simp [shape]
  · simp [shape]
  · rw [shape_cons]
    split
    · split
      · split <;> simp_all
      · simp_all
    · simp_all

theorem shape_escape {w : Text} : shape w = .escape ↔ w = ['-', '-'] := by
  rcases w with _ | ⟨c, _ | ⟨c', s⟩⟩
  · simp [shape]
  · simp [shape]
  · rw [shape_cons]
    split
    · split
      · split <;> simp_all
      · simp_all
    · simp_all

theorem shape_long {w s : Text} : shape w = .long s ↔ w = '-' :: '-' :: s ∧ s ≠ [] := by
  rcases w with _ | ⟨c, _ | ⟨c', s'⟩⟩
  · simp [shape]
  · simp [shape]
  · rw [shape_cons]
    split
    · split
      · split <;> simp_all
        rintro rfl; assumption
      · simp_all
    · simp_all

theorem shape_short {w s : Text} :
    shape w = .short s ↔ w = '-' :: s ∧ s ≠ [] ∧ s.head? ≠ some '-' := by
  rcases w with _ | ⟨c, _ | ⟨c', s'⟩⟩
  · simp [shape]
  · simp only [shape, reduceCtorEq, List.cons.injEq, false_iff]
    rintro ⟨⟨_, e⟩, h, _⟩
    exact h e.symm
  · rw [shape_cons]
    split
    · split
      · split <;> simp_all <;> rintro rfl <;> simp_all
      · simp_all; rintro rfl; simp_all
    · simp_all

theorem splitEq_none {s : Text} (h : '=' ∉ s) : splitEq s = (s, none) := by
  induction s with
  | nil => rfl
  | cons c s ih =>
    rw [List.mem_cons, not_or] at h
    rw [splitEq, if_neg (fun e => h.1 e.symm), ih h.2]

theorem splitEq_some {s v : Text} (h : '=' ∉ s) : splitEq (s ++ '=' :: v) = (s, some v) := by
  induction s with
  | nil => rfl
  | cons c s ih =>
    rw [List.mem_cons, not_or] at h
    rw [List.cons_append, splitEq, if_neg (fun e => h.1 e.symm), ih h.2]

theorem splitEq_inv (s : Text) : s = (splitEq s).1 ++
    (match (splitEq s).2 with | none => [] | some v => '=' :: v) := by
  induction s with
  | nil => rfl
  | cons c s ih =>
    rw [splitEq]
    split
    next h => rw [h]; rfl
    next => rw [List.cons_append, ← ih]

/-- The words of one option, or of several joined ones. -/
inductive Item (os : List Spec.Line.Opt) : List Text → Given' → Prop
  | flag {o} : o ∈ os → o.kind = none → Item os ['-' :: '-' :: o.long.toList] [(o, [])]
  | eq {o v} : o ∈ os → o.kind ≠ none →
      Item os ['-' :: '-' :: (o.long.toList ++ '=' :: v)] [(o, v)]
  | long {o v} : o ∈ os → o.kind ≠ none → ¬ Dashed v →
      Item os ['-' :: '-' :: o.long.toList, v] [(o, v)]
  | flags {s f} : Spec.Line.Flags os s f → s ≠ [] → Item os ['-' :: s] f
  | short {s f o c v} : Spec.Line.Flags os s f → o ∈ os → o.kind ≠ none → o.short = some c → ¬ Dashed v →
      Item os ['-' :: (s ++ [c]), v] (f ++ [(o, v)])
  | shortEq {s f o c v} : Spec.Line.Flags os s f → o ∈ os → o.kind ≠ none → o.short = some c →
      Item os ['-' :: (s ++ c :: '=' :: v)] (f ++ [(o, v)])
  | shortJoined {s f o c v} : Spec.Line.Flags os s f → o ∈ os → o.kind ≠ none → o.short = some c →
      v ≠ [] → v.head? ≠ some '=' → Item os ['-' :: (s ++ c :: v)] (f ++ [(o, v)])

theorem Words.item {i ws : List Text} {l l' : Given'} {ps : List Text} (hi : Item os i l)
    (hw : Words os ws l' ps) : Words os (i ++ ws) (l ++ l') ps := by
  cases hi with
  | flag h1 h2 => exact .flag h1 h2 hw
  | eq h1 h2 => exact .eq h1 h2 hw
  | long h1 h2 h3 => exact .long h1 h2 h3 hw
  | flags h1 h2 => exact .flags h1 h2 hw
  | short h1 h2 h3 h4 h5 => simpa using Words.short h1 h2 h3 h4 h5 hw
  | shortEq h1 h2 h3 h4 => simpa using Words.shortEq h1 h2 h3 h4 hw
  | shortJoined h1 h2 h3 h4 h5 h6 => simpa using Words.shortJoined h1 h2 h3 h4 h5 h6 hw

/-- Words are options in words, other words, and words after `--`. -/
theorem Words.induct {C : List Text → Given' → List Text → Prop}
    (nil : C [] [] []) (stop : ∀ ps, C (['-', '-'] :: ps) [] ps)
    (word : ∀ {w ws l ps}, ¬ Dashed w → Words os ws l ps → C ws l ps → C (w :: ws) l (w :: ps))
    (item : ∀ {i ws l l' ps}, Item os i l → Words os ws l' ps → C ws l' ps →
      C (i ++ ws) (l ++ l') ps)
    {ws l ps} (h : Words os ws l ps) : C ws l ps := by
  induction h with
  | nil => exact nil
  | stop ps => exact stop ps
  | word h hw ih => exact word h hw ih
  | flag h1 h2 hw ih => exact item (.flag h1 h2) hw ih
  | eq h1 h2 hw ih => exact item (.eq h1 h2) hw ih
  | long h1 h2 h3 hw ih => exact item (.long h1 h2 h3) hw ih
  | flags h1 h2 hw ih => exact item (.flags h1 h2) hw ih
  | short h1 h2 h3 h4 h5 hw ih => simpa using item (.short h1 h2 h3 h4 h5) hw ih
  | shortEq h1 h2 h3 h4 hw ih => simpa using item (.shortEq h1 h2 h3 h4) hw ih
  | shortJoined h1 h2 h3 h4 h5 h6 hw ih => simpa using item (.shortJoined h1 h2 h3 h4 h5 h6) hw ih

theorem optOf_value {o : Spec.Line.Opt} : (optOf o).value = none ↔ o.kind = none := by
  simp [optOf]

theorem optOf_value_some {o : Spec.Line.Opt} (h : o.kind ≠ none) : ∃ k, (optOf o).value = some k := by
  rcases e : (optOf o).value with _ | k
  · exact absurd (optOf_value.mp e) h
  · exact ⟨k, rfl⟩

theorem map_ok {α β : Type} {x : Except Stop α} {f : α → β} {y : β} :
    x.map f = .ok y ↔ ∃ a, x = .ok a ∧ y = f a := by
  rcases x with e | a
  · simp [Except.map]
  · simp only [Except.map, Except.ok.injEq, exists_eq_left']
    exact eq_comm

theorem shorts_flags (h : Wf d os) {s : Text} {f : Given'} (hf : Spec.Line.Flags os s f) (t : Text)
    (p : Parsed) (y : Parsed × Option Opt) :
    p.shorts rd d (s ++ t) = .ok y ↔ Ok rd p f ∧ (addTo p f).shorts rd d t = .ok y := by
  induction hf generalizing p with
  | nil => simp [addTo_nil, Ok.nil]
  | @cons o c s l ho hk hc hf ih =>
    rw [List.cons_append, Parsed.shorts, find_short h ho hc]
    have hv := optOf_value.mpr hk
    have e : ((o, []) :: l : Given') = [(o, [])] ++ l := rfl
    rw [e, Ok.append, addTo_append]
    simp only [hv]
    rcases hg : p.give rd (optOf o) [] with er | p'
    · simp only [reduceCtorEq, false_iff]
      rintro ⟨⟨h1, _⟩, _⟩
      rw [(give_eq h ho).mpr ⟨h1, rfl⟩] at hg
      cases hg
    · obtain ⟨h1, rfl⟩ := (give_eq h ho).mp hg
      simp only
      rw [ih]
      simp [h1]

theorem shorts_value (h : Wf d os) {o : Spec.Line.Opt} {c : Char} (ho : o ∈ os) (hk : o.kind ≠ none)
    (hc : o.short = some c) {v v' : Text} (p : Parsed) (y : Parsed × Option Opt)
    (hv : v' = '=' :: v ∨ (v' = v ∧ v ≠ [] ∧ v.head? ≠ some '=')) :
    p.shorts rd d (c :: v') = .ok y ↔ Ok rd p [(o, v)] ∧ y = (addTo p [(o, v)], none) := by
  have hat : attached v' = some v := by
    rcases hv with rfl | ⟨rfl, h1, h2⟩
    · rfl
    · unfold attached
      split
      · exact absurd rfl h1
      · simp at h2
      · rfl
  rw [Parsed.shorts, find_short h ho hc]
  obtain ⟨k, hk'⟩ := optOf_value_some hk
  simp only [hk', hat, map_ok, give_eq h ho]
  constructor
  · rintro ⟨a, ⟨h1, rfl⟩, rfl⟩; exact ⟨h1, rfl⟩
  · rintro ⟨h1, rfl⟩; exact ⟨_, ⟨h1, rfl⟩, rfl⟩

theorem shorts_want (h : Wf d os) {o : Spec.Line.Opt} {c : Char} (ho : o ∈ os) (hk : o.kind ≠ none)
    (hc : o.short = some c) (p : Parsed) :
    p.shorts rd d [c] = .ok (p, some (optOf o)) := by
  rw [Parsed.shorts, find_short h ho hc]
  obtain ⟨k, hk'⟩ := optOf_value_some hk
  simp only [hk', attached]

theorem scan_want (h : Wf d os) {o : Spec.Line.Opt} (ho : o ∈ os) {sub : Bool} {v : Text}
    (hv : ¬ Dashed v) {ws : List Text} {p : Parsed} {x : Parsed × List Text} :
    scan rd d sub (some (optOf o)) (v :: ws) p = .ok x ↔
      Ok rd p [(o, v)] ∧ scan rd d sub none ws (addTo p [(o, v)]) = .ok x := by
  have hy : ¬ hyphen v = true := fun e => hv (hyphen_iff.mp e)
  rw [scan, if_neg hy]
  rcases hg : p.give rd (optOf o) v with er | p'
  · simp only [reduceCtorEq, false_iff]
    rintro ⟨h1, _⟩
    rw [(give_eq h ho).mpr ⟨h1, rfl⟩] at hg
    cases hg
  · obtain ⟨h1, rfl⟩ := (give_eq h ho).mp hg
    simp [h1]

theorem scan_word {sub : Bool} {w : Text} {ws : List Text} {p : Parsed}
    {x : Parsed × List Text} {g : Text → Except Stop (Parsed × Option Opt)} {s : Text}
    (hs : (shape w = .long s ∧ g = fun s => p.long rd d s) ∨
      (shape w = .short s ∧ g = fun s => p.shorts rd d s)) :
    scan rd d sub none (w :: ws) p = .ok x ↔
      ∃ y, g s = .ok y ∧ scan rd d sub y.2 ws y.1 = .ok x := by
  rw [scan]
  rcases hs with ⟨hs, rfl⟩ | ⟨hs, rfl⟩ <;> simp only [hs]
  · rcases p.long rd d s with er | ⟨p', want⟩ <;> simp
  · rcases p.shorts rd d s with er | ⟨p', want⟩ <;> simp

theorem flags_head (h : Wf d os) {s t : Text} {f : Given'} (hf : Spec.Line.Flags os s f)
    (ht : t.head? ≠ some '-') : (s ++ t).head? ≠ some '-' := by
  cases hf with
  | nil => exact ht
  | cons ho _ hc _ =>
    simp only [List.cons_append, List.head?_cons]
    intro e
    exact (h.noHelp _ ho).2.2 (hc.trans e)

theorem short_ne (h : Wf d os) {o : Spec.Line.Opt} (ho : o ∈ os) {c : Char} (hc : o.short = some c)
    (t : Text) : (c :: t).head? ≠ some '-' := fun e => (h.noHelp _ ho).2.2 (hc.trans e)

/-- Options in words are given. -/
theorem scan_item (h : Wf d os) {sub : Bool} {i : List Text} {l : Given'} (hi : Item os i l)
    {ws : List Text} {p : Parsed} {x : Parsed × List Text} :
    scan rd d sub none (i ++ ws) p = .ok x ↔
      Ok rd p l ∧ scan rd d sub none ws (addTo p l) = .ok x := by
  cases hi with
  | @flag o ho hk =>
    have hs : shape ('-' :: '-' :: o.long.toList) = .long o.long.toList :=
      shape_long.mpr ⟨rfl, (h.noEq o ho).2⟩
    rw [List.singleton_append, scan_word (.inl ⟨hs, rfl⟩)]
    simp only [Parsed.long, splitEq_none (h.noEq o ho).1, find_long h ho, optOf_value.mpr hk, map_ok,
      give_eq h ho]
    constructor
    · rintro ⟨y, ⟨a, ⟨h1, rfl⟩, rfl⟩, h2⟩; exact ⟨h1, h2⟩
    · rintro ⟨h1, h2⟩; exact ⟨_, ⟨_, ⟨h1, rfl⟩, rfl⟩, h2⟩
  | @eq o v ho hk =>
    have hs : shape ('-' :: '-' :: (o.long.toList ++ '=' :: v)) = .long (o.long.toList ++ '=' :: v) :=
      shape_long.mpr ⟨rfl, by simp⟩
    obtain ⟨k, hk'⟩ := optOf_value_some hk
    rw [List.singleton_append, scan_word (.inl ⟨hs, rfl⟩)]
    simp only [Parsed.long, splitEq_some (h.noEq o ho).1, find_long h ho, hk', map_ok, give_eq h ho]
    constructor
    · rintro ⟨y, ⟨a, ⟨h1, rfl⟩, rfl⟩, h2⟩; exact ⟨h1, h2⟩
    · rintro ⟨h1, h2⟩; exact ⟨_, ⟨_, ⟨h1, rfl⟩, rfl⟩, h2⟩
  | @long o v ho hk hv =>
    have hs : shape ('-' :: '-' :: o.long.toList) = .long o.long.toList :=
      shape_long.mpr ⟨rfl, (h.noEq o ho).2⟩
    obtain ⟨k, hk'⟩ := optOf_value_some hk
    rw [List.cons_append, scan_word (.inl ⟨hs, rfl⟩), List.singleton_append]
    simp only [Parsed.long, splitEq_none (h.noEq o ho).1, find_long h ho, hk', Except.ok.injEq,
      exists_eq_left', scan_want h ho hv]
  | @flags s f hf hs0 =>
    have hs : shape ('-' :: s) = .short s :=
      shape_short.mpr ⟨rfl, hs0, by simpa using flags_head h (t := []) hf (by simp)⟩
    rw [List.singleton_append, scan_word (.inr ⟨hs, rfl⟩)]
    have := fun y => shorts_flags (rd := rd) h hf [] p y
    simp only [List.append_nil] at this
    simp only [this, Parsed.shorts, Except.ok.injEq]
    constructor
    · rintro ⟨y, ⟨h1, rfl⟩, h2⟩; exact ⟨h1, h2⟩
    · rintro ⟨h1, h2⟩; exact ⟨_, ⟨h1, rfl⟩, h2⟩
  | @short s f o c v hf ho hk hc hv =>
    have hs : shape ('-' :: (s ++ [c])) = .short (s ++ [c]) :=
      shape_short.mpr ⟨rfl, by simp, flags_head h hf (short_ne h ho hc [])⟩
    rw [List.cons_append, scan_word (.inr ⟨hs, rfl⟩), List.singleton_append]
    simp only [shorts_flags h hf, shorts_want h ho hk hc, Except.ok.injEq, Ok.append, addTo_append]
    constructor
    · rintro ⟨y, ⟨h1, rfl⟩, h2⟩
      rw [scan_want h ho hv] at h2
      exact ⟨⟨h1, h2.1⟩, h2.2⟩
    · rintro ⟨⟨h1, h2⟩, h3⟩
      exact ⟨_, ⟨h1, rfl⟩, (scan_want h ho hv).mpr ⟨h2, h3⟩⟩
  | @shortEq s f o c v hf ho hk hc =>
    have hs : shape ('-' :: (s ++ c :: '=' :: v)) = .short (s ++ c :: '=' :: v) :=
      shape_short.mpr ⟨rfl, by simp, flags_head h hf (short_ne h ho hc _)⟩
    rw [List.singleton_append, scan_word (.inr ⟨hs, rfl⟩)]
    simp only [shorts_flags h hf, shorts_value h ho hk hc _ _ (.inl rfl), Ok.append, addTo_append]
    constructor
    · rintro ⟨y, ⟨h1, h2, rfl⟩, h3⟩; exact ⟨⟨h1, h2⟩, h3⟩
    · rintro ⟨⟨h1, h2⟩, h3⟩; exact ⟨_, ⟨h1, h2, rfl⟩, h3⟩
  | @shortJoined s f o c v hf ho hk hc hv hv' =>
    have hs : shape ('-' :: (s ++ c :: v)) = .short (s ++ c :: v) :=
      shape_short.mpr ⟨rfl, by simp, flags_head h hf (short_ne h ho hc _)⟩
    rw [List.singleton_append, scan_word (.inr ⟨hs, rfl⟩)]
    simp only [shorts_flags h hf, shorts_value h ho hk hc _ _ (.inr ⟨rfl, hv, hv'⟩), Ok.append,
      addTo_append]
    constructor
    · rintro ⟨y, ⟨h1, h2, rfl⟩, h3⟩; exact ⟨⟨h1, h2⟩, h3⟩
    · rintro ⟨⟨h1, h2⟩, h3⟩; exact ⟨_, ⟨h1, h2, rfl⟩, h3⟩

theorem attached_none {s : Text} (h : attached s = none) : s = [] := by
  unfold attached at h
  split at h
  · rfl
  · cases h
  · cases h

theorem attached_some {s v : Text} (h : attached s = some v) :
    s = '=' :: v ∨ (s = v ∧ v ≠ [] ∧ v.head? ≠ some '=') := by
  unfold attached at h
  split at h
  · cases h
  · cases h; exact .inl rfl
  next h1 h2 =>
    cases h
    refine .inr ⟨rfl, fun e => h1 e, ?_⟩
    rcases s with _ | ⟨c, s⟩
    · simp
    · simp only [List.head?_cons, ne_eq, Option.some.injEq]
      intro e
      exact h2 s (by rw [e])

/-- What the letters of a word that is accepted are. -/
theorem shorts_inv (h : Wf d os) {s : Text} {p : Parsed} {y : Parsed × Option Opt}
    (hy : p.shorts rd d s = .ok y) :
    (y.2 = none ∧ ∃ f, Spec.Line.Flags os s f) ∨
    (∃ s' f o c, Spec.Line.Flags os s' f ∧ o ∈ os ∧ o.kind ≠ none ∧ o.short = some c ∧
      ((s = s' ++ [c] ∧ y.2 = some (optOf o)) ∨
        y.2 = none ∧ ∃ v, (s = s' ++ c :: '=' :: v) ∨
          (s = s' ++ c :: v ∧ v ≠ [] ∧ v.head? ≠ some '='))) := by
  induction s generalizing p with
  | nil =>
    simp only [Parsed.shorts, Except.ok.injEq] at hy
    subst hy
    exact .inl ⟨rfl, [], .nil⟩
  | cons c s ih =>
    rw [Parsed.shorts] at hy
    rcases hf : d.opts.find? (fun o => o.short == some c) with _ | x
    · rw [hf] at hy; cases hy
    · rw [hf] at hy
      rcases find_short_inv h hf with rfl | ⟨o, ho, rfl, hc⟩
      · simp [helpOpt] at hy
        rw [show (⟨some 'h', ['h', 'e', 'l', 'p'], none⟩ : Opt) = helpOpt from rfl, give_help] at hy
        cases hy
      · by_cases hk : o.kind = none
        · simp only [optOf_value.mpr hk] at hy
          rcases hg : p.give rd (optOf o) [] with er | p'
          · rw [hg] at hy; cases hy
          · rw [hg] at hy
            rcases ih hy with ⟨h1, f, h2⟩ | ⟨s', f, o', c', h1, h2, h3, h4, h5⟩
            · exact .inl ⟨h1, _, .cons ho hk hc h2⟩
            · refine .inr ⟨c :: s', _, o', c', .cons ho hk hc h1, h2, h3, h4, ?_⟩
              rcases h5 with ⟨rfl, h5⟩ | ⟨h5, v, rfl | ⟨rfl, h6⟩⟩
              · exact .inl ⟨rfl, h5⟩
              · exact .inr ⟨h5, v, .inl rfl⟩
              · exact .inr ⟨h5, v, .inr ⟨rfl, h6⟩⟩
        · obtain ⟨k, hk'⟩ := optOf_value_some hk
          refine .inr ⟨[], [], o, c, .nil, ho, hk, hc, ?_⟩
          simp only [hk'] at hy
          rcases hat : attached s with _ | v
          · simp only [hat, Except.ok.injEq] at hy
            subst hy
            exact .inl ⟨by rw [attached_none hat]; rfl, rfl⟩
          · simp only [hat, map_ok] at hy
            obtain ⟨a, _, rfl⟩ := hy
            exact .inr ⟨rfl, v, by
              rcases attached_some hat with rfl | ⟨rfl, h1⟩
              · exact .inl rfl
              · exact .inr ⟨rfl, h1⟩⟩

theorem want_inv {sub : Bool} {o : Opt} {ws : List Text} {p : Parsed} {x : Parsed × List Text}
    (hx : scan rd d sub (some o) ws p = .ok x) : ∃ v ws', ws = v :: ws' ∧ ¬ Dashed v := by
  rcases ws with _ | ⟨v, ws⟩
  · rw [scan] at hx; cases hx
  · rw [scan] at hx
    split at hx
    · cases hx
    next hv => exact ⟨v, ws, rfl, fun e => hv (hyphen_iff.mpr e)⟩

/-- Words that begin with a hyphen and are accepted are options. -/
theorem scan_inv (h : Wf d os) {sub : Bool} {w : Text} {ws : List Text} {p : Parsed}
    {x : Parsed × List Text} (hd : Dashed w) (hn : w ≠ ['-', '-'])
    (hx : scan rd d sub none (w :: ws) p = .ok x) :
    ∃ i l ws', w :: ws = i ++ ws' ∧ Item os i l := by
  rcases hs : shape w with _ | s | s | _
  · exact absurd (shape_escape.mp hs) hn
  · obtain ⟨rfl, hs0⟩ := shape_long.mp hs
    obtain ⟨y, hy, hx⟩ := (scan_word (.inl ⟨hs, rfl⟩)).mp hx
    have hsp := splitEq_inv s
    simp only [Parsed.long] at hy
    rcases hf : d.opts.find? (fun o => o.long == (splitEq s).1) with _ | o
    · rw [hf] at hy; cases hy
    · rw [hf] at hy
      rcases find_long_inv h hf with rfl | ⟨o, ho, rfl, hl⟩
      · rcases hv : (splitEq s).2 with _ | v <;> rw [hv] at hy <;>
          simp [helpOpt, Except.map] at hy
        rw [show (⟨some 'h', ['h', 'e', 'l', 'p'], none⟩ : Opt) = helpOpt from rfl, give_help] at hy
        cases hy
      · rw [hl] at hsp
        by_cases hk : o.kind = none
        · simp only [optOf_value.mpr hk] at hy
          rcases hv : (splitEq s).2 with _ | v
          · rw [hv] at hsp
            simp only [List.append_nil] at hsp
            subst hsp
            exact ⟨_, _, ws, rfl, .flag ho hk⟩
          · rw [hv] at hy; cases hy
        · obtain ⟨k, hk'⟩ := optOf_value_some hk
          simp only [hk'] at hy
          rcases hv : (splitEq s).2 with _ | v
          · rw [hv] at hsp hy
            simp only [List.append_nil] at hsp
            subst hsp
            simp only [Except.ok.injEq] at hy
            subst hy
            obtain ⟨v, ws', rfl, hv⟩ := want_inv hx
            exact ⟨_, _, ws', rfl, .long ho hk hv⟩
          · rw [hv] at hsp
            simp only at hsp
            rw [hsp]
            exact ⟨_, _, ws, rfl, .eq ho hk⟩
  · obtain ⟨rfl, hs0, _⟩ := shape_short.mp hs
    obtain ⟨y, hy, hx'⟩ := (scan_word (.inr ⟨hs, rfl⟩)).mp hx
    rcases shorts_inv h hy with ⟨h1, f, h2⟩ | ⟨s', f, o', c', h1, h2, h3, h4, h5⟩
    · exact ⟨_, _, ws, rfl, .flags h2 hs0⟩
    · rcases h5 with ⟨rfl, h5⟩ | ⟨h5, v, rfl | ⟨rfl, h6, h7⟩⟩
      · rw [h5] at hx'
        obtain ⟨v, ws', rfl, hv⟩ := want_inv hx'
        exact ⟨_, _, ws', rfl, .short h1 h2 h3 h4 hv⟩
      · exact ⟨_, _, ws, rfl, .shortEq h1 h2 h3 h4⟩
      · exact ⟨_, _, ws, rfl, .shortJoined h1 h2 h3 h4 h6 h7⟩
  · exact absurd hd (shape_word.mp hs)

/-! ## All words -/

/-- These words can be added to the words that are no options. -/
def PosOk (d : Decl) (p : Parsed) (ps : List Text) : Prop :=
  (∀ n, d.words = some n → ps = [] ∨ p.pos.length + ps.length ≤ n) ∧
    (d.path = true → p.pos = [] → ps.head? ≠ some [])

theorem PosOk.nil {p : Parsed} : PosOk d p [] := by simp [PosOk]

theorem word_eq {p p' : Parsed} {w : Text} {ps : List Text} :
    (p.word d w = .ok p' ∧ PosOk d p' ps) ↔
      PosOk d p (w :: ps) ∧ p' = { p with pos := p.pos ++ [w] } := by
  unfold Parsed.word PosOk
  by_cases h1 : d.path = true ∧ p.pos = [] ∧ w = []
  · rw [if_pos h1]
    simp [h1.1, h1.2.1, h1.2.2]
  · rw [if_neg h1]
    have h1' : d.path = true → p.pos = [] → w ≠ [] := fun a b c => h1 ⟨a, b, c⟩
    have hr : d.room p.pos.length = true ↔ ∀ n, d.words = some n → p.pos.length < n := by
      unfold Decl.room
      rcases d.words with _ | m <;> simp
    by_cases h2 : d.room p.pos.length = true
    · rw [if_pos h2]
      have h2' := hr.mp h2
      simp only [Except.ok.injEq]
      constructor
      · rintro ⟨rfl, h3, h4⟩
        refine ⟨⟨fun n hn => .inr ?_, fun a b => ?_⟩, rfl⟩
        · have := h2' n hn
          rcases h3 n hn with rfl | h3
          · simp; omega
          · simp only [List.length_append, List.length_singleton] at h3
            simp only [List.length_cons]; omega
        · simpa using h1' a b
      · rintro ⟨⟨h3, h4⟩, rfl⟩
        refine ⟨rfl, fun n hn => .inr ?_, fun a b => ?_⟩
        · rcases h3 n hn with h3 | h3
          · simp at h3
          · simp only [List.length_cons] at h3
            simp only [List.length_append, List.length_singleton]; omega
        · simp at b
    · rw [if_neg h2]
      simp only [reduceCtorEq, false_and, false_iff]
      rintro ⟨⟨h3, _⟩, _⟩
      refine h2 (hr.mpr fun n hn => ?_)
      rcases h3 n hn with h3 | h3
      · simp at h3
      · simp only [List.length_cons] at h3; omega

theorem rest_eq {ps : List Text} {p p' : Parsed} :
    p.rest d ps = .ok p' ↔ PosOk d p ps ∧ p' = { p with pos := p.pos ++ ps } := by
  induction ps generalizing p with
  | nil =>
    simp only [Parsed.rest, Except.ok.injEq, List.append_nil, PosOk.nil, true_and]
    exact eq_comm
  | cons w ps ih =>
    rw [Parsed.rest]
    rcases hw : p.word d w with er | p1
    · simp only [reduceCtorEq, false_iff]
      rintro ⟨h1, _⟩
      have := (word_eq (ps := ps)).mpr ⟨h1, rfl⟩
      rw [hw] at this
      cases this.1
    · simp only
      rw [ih]
      constructor
      · rintro ⟨h1, rfl⟩
        obtain ⟨h2, rfl⟩ := word_eq.mp ⟨hw, h1⟩
        exact ⟨h2, by simp⟩
      · rintro ⟨h1, rfl⟩
        have := (word_eq (ps := ps)).mpr ⟨h1, rfl⟩
        rw [hw] at this
        obtain ⟨e, h2⟩ := this
        cases e
        exact ⟨h2, by simp⟩

theorem item_length {i : List Text} {l : Given'} (h : Item os i l) : 0 < i.length := by
  cases h <;> simp

theorem item_escape (h : Wf d os) {i : List Text} {l : Given'} (hi : Item os i l) :
    ['-', '-'] ∉ i := by
  have hd : Dashed ['-', '-'] := ⟨['-'], by simp, rfl⟩
  have hh : ∀ {t : Text}, t.head? ≠ some '-' → ¬ ['-', '-'] = '-' :: t := by
    rintro t ht e
    rw [← (List.cons.inj e).2] at ht
    exact ht rfl
  cases hi with
  | @flag o ho hk => simpa using fun e => (h.noEq o ho).2 (String.toList_eq_nil_iff.mpr e)
  | eq => simp
  | @long o v ho hk hv =>
    simp only [List.mem_cons, List.not_mem_nil, or_false, not_or]
    refine ⟨?_, fun e => hv (e ▸ hd)⟩
    simpa using fun e => (h.noEq o ho).2 (String.toList_eq_nil_iff.mpr e)
  | @flags s f hf hs =>
    simp only [List.mem_singleton]
    exact hh (by simpa using flags_head h (t := []) hf (by simp))
  | @short s f o c v hf ho hk hc hv =>
    simp only [List.mem_cons, List.not_mem_nil, or_false, not_or]
    exact ⟨hh (flags_head h hf (short_ne h ho hc [])), fun e => hv (e ▸ hd)⟩
  | @shortEq s f o c v hf ho hk hc =>
    simp only [List.mem_singleton]
    exact hh (flags_head h hf (short_ne h ho hc _))
  | @shortJoined s f o c v hf ho hk hc _ _ =>
    simp only [List.mem_singleton]
    exact hh (flags_head h hf (short_ne h ho hc _))

/-- The words after the name of a command. -/
theorem scan_words (h : Wf d os) {ws : List Text} {p : Parsed} {x : Parsed × List Text} :
    scan rd d false none ws p = .ok x ↔ ∃ l ps, Words os ws l ps ∧ Ok rd p l ∧ PosOk d p ps ∧
      x = (⟨p.set ++ names l, p.pos ++ ps⟩, []) := by
  constructor
  · intro hx
    induction hn : ws.length using Nat.strong_induction_on generalizing ws p with
    | _ n ih =>
    rcases ws with _ | ⟨w, ws⟩
    · simp only [scan, Except.ok.injEq] at hx
      exact ⟨[], [], .nil, Ok.nil p, .nil, by simp [← hx, names]⟩
    · by_cases hd : Dashed w
      · by_cases hs : w = ['-', '-']
        · subst hs
          have : shape ['-', '-'] = .escape := rfl
          simp only [scan, this, Bool.false_eq_true, if_false, map_ok, rest_eq] at hx
          obtain ⟨a, ⟨h1, rfl⟩, rfl⟩ := hx
          exact ⟨[], ws, .stop ws, Ok.nil p, h1, by simp [names]⟩
        · obtain ⟨i, l, ws', e, hi⟩ := scan_inv h hd hs hx
          rw [e] at hx hn ⊢
          obtain ⟨h1, h2⟩ := (scan_item h hi).mp hx
          have := item_length hi
          rw [List.length_append] at hn
          obtain ⟨l', ps, h3, h4, h5, h6⟩ := ih ws'.length (by omega) h2 rfl
          refine ⟨l ++ l', ps, Words.item hi h3, Ok.append.mpr ⟨h1, h4⟩, h5, ?_⟩
          rw [h6]
          simp [addTo, names]
      · simp only [scan, shape_word.mpr hd, Bool.false_eq_true, if_false] at hx
        rcases hw : p.word d w with er | p1
        · rw [hw] at hx; cases hx
        · rw [hw] at hx
          simp only at hx
          simp only [List.length_cons] at hn
          obtain ⟨l, ps, h3, h4, h5, h6⟩ := ih ws.length (by omega) hx rfl
          obtain ⟨h7, rfl⟩ := word_eq.mp ⟨hw, h5⟩
          exact ⟨l, w :: ps, .word hd h3, h4, h7, by rw [h6]; simp⟩
  · rintro ⟨l, ps, hw, hl, hp, rfl⟩
    revert p
    refine Words.induct (C := fun ws l ps => ∀ {p : Parsed}, Ok rd p l → PosOk d p ps →
      scan rd d false none ws p = .ok (⟨p.set ++ names l, p.pos ++ ps⟩, [])) ?_ ?_ ?_ ?_ hw
    · intro p _ _; simp [scan, names]
    · intro ps p _ hp
      have : shape ['-', '-'] = .escape := rfl
      simp only [scan, this, Bool.false_eq_true, if_false, map_ok, rest_eq]
      exact ⟨_, ⟨hp, rfl⟩, by simp [names]⟩
    · intro w ws l ps hd _ ih p hl hp
      simp only [scan, shape_word.mpr hd, Bool.false_eq_true, if_false]
      obtain ⟨h1, h2⟩ := (word_eq (ps := ps)).mpr ⟨hp, rfl⟩
      rw [h1]
      simp only
      rw [ih (p := { p with pos := p.pos ++ [w] }) hl h2]
      simp
    · intro i ws l l' ps hi _ ih p hl hp
      obtain ⟨h1, h2⟩ := Ok.append.mp hl
      rw [scan_item h hi]
      refine ⟨h1, ?_⟩
      rw [ih h2 hp]
      simp [addTo, names]

/-- The words before the name of a command. -/
theorem scan_before (h : Wf d os) {ws : List Text} {p : Parsed} {x : Parsed × List Text} :
    scan rd d true none ws p = .ok x ↔ ∃ ws₁ ws₂ l, ws = ws₁ ++ ws₂ ∧ Words os ws₁ l [] ∧
      ['-', '-'] ∉ ws₁ ∧ Ok rd p l ∧ (∀ w ∈ ws₂.head?, ¬ Dashed w) ∧ x = (addTo p l, ws₂) := by
  constructor
  · intro hx
    induction hn : ws.length using Nat.strong_induction_on generalizing ws p with
    | _ n ih =>
    rcases ws with _ | ⟨w, ws⟩
    · simp only [scan, Except.ok.injEq] at hx
      exact ⟨[], [], [], rfl, .nil, by simp, Ok.nil p, by simp, by rw [← hx, addTo_nil]⟩
    · by_cases hd : Dashed w
      · by_cases hs : w = ['-', '-']
        · subst hs
          have : shape ['-', '-'] = .escape := rfl
          simp only [scan, this, if_true] at hx
          cases hx
        · obtain ⟨i, l, ws', e, hi⟩ := scan_inv h hd hs hx
          rw [e] at hx hn
          obtain ⟨h1, h2⟩ := (scan_item h hi).mp hx
          have := item_length hi
          rw [List.length_append] at hn
          obtain ⟨ws₁, ws₂, l', rfl, h3, h4, h5, h6, h7⟩ := ih ws'.length (by omega) h2 rfl
          refine ⟨i ++ ws₁, ws₂, l ++ l', by rw [e, List.append_assoc], Words.item hi h3, ?_,
            Ok.append.mpr ⟨h1, h5⟩, h6, ?_⟩
          · rw [List.mem_append, not_or]
            refine ⟨?_, h4⟩
            exact item_escape h hi
          · rw [h7, addTo_append]
      · simp only [scan, shape_word.mpr hd, if_true, Except.ok.injEq] at hx
        exact ⟨[], w :: ws, [], rfl, .nil, by simp, Ok.nil p, by simpa using hd,
          by rw [← hx, addTo_nil]⟩
  · rintro ⟨ws₁, ws₂, l, rfl, hw, hs, hl, hd, rfl⟩
    generalize hps : ([] : List Text) = ps at hw
    revert p
    refine Words.induct (C := fun ws l ps => ['-', '-'] ∉ ws → [] = ps → ∀ {p : Parsed}, Ok rd p l →
      scan rd d true none (ws ++ ws₂) p = .ok (addTo p l, ws₂)) ?_ ?_ ?_ ?_ hw hs hps
    · intro _ _ p _
      rcases ws₂ with _ | ⟨w, ws₂⟩
      · simp [scan, addTo_nil]
      · have := hd w (by simp)
        simp [scan, shape_word.mpr this, addTo_nil]
    · intro ps hs; simp at hs
    · intro w ws l ps _ _ _ _ e; cases e
    · intro i ws l l' ps hi _ ih hs e p hl
      rw [List.mem_append, not_or] at hs
      obtain ⟨h1, h2⟩ := Ok.append.mp hl
      rw [List.append_assoc, scan_item h hi]
      refine ⟨h1, ?_⟩
      rw [ih hs.2 e h2, addTo_append]

/-! ## Values -/

theorem flags_mem {s : Text} {f : Given'} (h : Spec.Line.Flags os s f) : ∀ x ∈ f, x.1 ∈ os := by
  induction h with
  | nil => simp
  | cons ho _ _ _ ih =>
    intro x hx
    rcases List.mem_cons.mp hx with rfl | hx
    · exact ho
    · exact ih x hx

theorem item_mem {i : List Text} {l : Given'} (h : Item os i l) : ∀ x ∈ l, x.1 ∈ os := by
  cases h with
  | flag h => simpa using h
  | eq h => simpa using h
  | long h => simpa using h
  | flags h => exact flags_mem h
  | short h h' =>
    intro x hx
    rcases List.mem_append.mp hx with hx | hx
    · exact flags_mem h x hx
    · rw [List.mem_singleton.mp hx]; exact h'
  | shortEq h h' =>
    intro x hx
    rcases List.mem_append.mp hx with hx | hx
    · exact flags_mem h x hx
    · rw [List.mem_singleton.mp hx]; exact h'
  | shortJoined h h' =>
    intro x hx
    rcases List.mem_append.mp hx with hx | hx
    · exact flags_mem h x hx
    · rw [List.mem_singleton.mp hx]; exact h'

theorem words_mem {ws ps : List Text} {l : Given'} (h : Words os ws l ps) : ∀ x ∈ l, x.1 ∈ os := by
  refine Words.induct (C := fun _ l _ => ∀ x ∈ l, x.1 ∈ os) (by simp) (by simp)
    (fun _ _ ih => ih) (fun hi _ ih => ?_) h
  intro x hx
  rcases List.mem_append.mp hx with hx | hx
  · exact item_mem hi x hx
  · exact ih x hx

theorem lookup_some {l : Given'} (hn : (l.map (·.1.long)).Nodup) {o : Spec.Line.Opt} {v : Text}
    (h : (o, v) ∈ l) : (names l).lookup o.long.toList = some v := by
  induction l with
  | nil => simp at h
  | cons x l ih =>
    simp only [List.map_cons, List.nodup_cons] at hn
    rw [names, List.map_cons, List.lookup_cons]
    rcases List.mem_cons.mp h with rfl | h
    · simp
    · have : ¬ o.long.toList = x.1.long.toList := fun e =>
        hn.1 (by rw [← String.toList_injective e]; exact List.mem_map_of_mem (f := (·.1.long)) h)
      rw [beq_eq_false_iff_ne.mpr this]
      exact ih hn.2 h

theorem lookup_none {l : Given'} {name : String} (h : ∀ o v, (o, v) ∈ l → o.long ≠ name) :
    (names l).lookup name.toList = none := by
  rw [List.lookup_eq_none_iff]
  intro x hx
  simp only [names, List.mem_map] at hx
  obtain ⟨⟨o, v⟩, hx, rfl⟩ := hx
  simp only [bne_iff_ne, ne_eq]
  exact fun e => h o v hx (String.toList_injective e.symm)

theorem given_iff {l : Given'} {name : String} {p : Parsed} (hp : p.set = names l) :
    p.flag name.toList = true ↔ Given l name := by
  unfold Parsed.flag Given
  rw [hp, decide_eq_true_iff, names, List.map_map]
  simp only [List.mem_map, Function.comp_apply, Prod.exists]
  constructor
  · rintro ⟨o, v, h, e⟩; exact ⟨o, v, h, String.toList_injective e⟩
  · rintro ⟨o, v, h, rfl⟩; exact ⟨o, v, h, rfl⟩

theorem value_iff {l : Given'} (hl : Fine rd l) {name : String} {p : Parsed} (hp : p.set = names l)
    {k : Spec.Line.Kind} (hk : ∀ o v, (o, v) ∈ l → o.long = name → o.kind = some k)
    {f : Text → Nat} (hf : ∀ v n, Reads rd k v n → f v = n) {s : Text} {D : Nat} (hD : f s = D)
    {n : Nat} : Value rd l name D n ↔ f ((p.get name.toList).getD s) = n := by
  unfold Value Parsed.get
  rw [hp]
  by_cases h : ∃ o v, (o, v) ∈ l ∧ o.long = name
  · obtain ⟨o, v, h, rfl⟩ := h
    rw [lookup_some hl.1 h, Option.getD_some]
    constructor
    · rintro (⟨o', v', k', h1, h2, h3, h4⟩ | ⟨_, h1⟩)
      · have := lookup_some hl.1 h1
        rw [h2, lookup_some hl.1 h] at this
        cases this
        rw [hk _ _ h1 h2] at h3
        cases h3
        exact hf v n h4
      · exact absurd rfl (h1 o v h)
    · intro e
      obtain ⟨m, hm⟩ := hl.2 o v h k (hk o v h rfl)
      rw [hf v m hm] at e
      subst e
      exact .inl ⟨o, v, k, h, rfl, hk o v h rfl, hm⟩
  · have h' : ∀ o v, (o, v) ∈ l → o.long ≠ name := fun o v h1 h2 => h ⟨o, v, h1, h2⟩
    rw [lookup_none h', Option.getD_none, hD]
    constructor
    · rintro (⟨o, v, _, h1, h2, _⟩ | ⟨h1, _⟩)
      · exact absurd h2 (h' o v h1)
      · exact h1.symm
    · intro e; exact .inr ⟨e.symm, h'⟩

theorem usizeOf_reads : ∀ v n, Reads rd .usize v n → (usizeOf v).toNat = n := by
  rintro v n ⟨h, hl⟩
  have : readUsize v = some (BitVec.ofNat 64 n) := readUsize_eq.mpr (by
    rwa [BitVec.toNat_ofNat, Nat.mod_eq_of_lt hl])
  rw [usizeOf, this, Option.getD_some, BitVec.toNat_ofNat, Nat.mod_eq_of_lt hl]

theorem ranged_reads {m : Nat} {v : Text} {n : Nat}
    (h : (Natural v n ∧ n < m + 1) ∨ (n = 0 ∧ ∃ s', v = '-' :: s' ∧ Decimal s' 0)) :
    (readRanged m v).getD 0 = n := by
  have : readRanged m v = some n := readRanged_eq.mpr (by
    rcases h with ⟨h, hl⟩ | h
    · exact .inl ⟨h, by omega⟩
    · exact .inr h)
  rw [this, Option.getD_some]

theorem u8Of_reads : ∀ v n, Reads rd .u8 v n → (u8Of v).toNat = n := by
  intro v n h
  have hl : n < 2 ^ 8 := by
    rcases h with ⟨_, h⟩ | ⟨rfl, _⟩
    · exact h
    · decide
  rw [u8Of, ranged_reads h, BitVec.toNat_ofNat, Nat.mod_eq_of_lt hl]

theorem u32Of_reads : ∀ v n, Reads rd .u32 v n → u32Of v = n := fun _ _ h => ranged_reads h

theorem f64Of_reads : ∀ v n, Reads rd .f64 v n → (f64Of rd v).toNat = n := by
  rintro v n ⟨x, h, rfl⟩
  rw [f64Of, h, Option.getD_some]

/-! ## Commands -/

theorem subScan_eq (h : Wf d os) {ws : List Text} {p : Parsed} :
    subScan rd d ws = .ok p ↔ ∃ l ps, Words os ws l ps ∧ Fine rd l ∧ PosOk d ⟨[], []⟩ ps ∧
      p = ⟨names l, ps⟩ := by
  rw [subScan, map_ok]
  simp only [scan_words h, List.nil_append, Ok, List.map_nil, List.not_mem_nil, not_false_eq_true,
    implies_true, true_and]
  constructor
  · rintro ⟨a, ⟨l, ps, h1, h2, h3, rfl⟩, rfl⟩; exact ⟨l, ps, h1, h2, h3, rfl⟩
  · rintro ⟨l, ps, h1, h2, h3, rfl⟩; exact ⟨_, ⟨l, ps, h1, h2, h3, rfl⟩, rfl⟩

theorem bind_ok {α β : Type} {x : Except Stop α} {f : α → Except Stop β} {y : β} :
    x.bind f = .ok y ↔ ∃ a, x = .ok a ∧ f a = .ok y := by
  rcases x with e | a <;> simp [Except.bind]

theorem posOk_path {ps : List Text} (h1 : d.words = none) (h2 : d.path = true) :
    PosOk d ⟨[], []⟩ ps ↔ ps.head? ≠ some [] := by
  simp [PosOk, h1, h2]

theorem posOk_any {ps : List Text} (h1 : d.words = none) (h2 : d.path = false) :
    PosOk d ⟨[], []⟩ ps := by
  simp [PosOk, h1, h2]

theorem posOk_one {ps : List Text} (h1 : d.words = some 1) (h2 : d.path = false) :
    PosOk d ⟨[], []⟩ ps ↔ ps.length ≤ 1 := by
  simp only [PosOk, h1, h2, Option.some.injEq, forall_eq', List.length_nil, Nat.zero_add,
    Bool.false_eq_true, false_implies, and_true]
  constructor
  · rintro (rfl | h)
    · simp
    · exact h
  · exact .inr

/-- The kind of an option by its name. -/
theorem kind_of {ws ps : List Text} {l : Given'} (hw : Words os ws l ps) {name : String}
    {k : Spec.Line.Kind} (h : ∀ o ∈ os, o.long = name → o.kind = some k) :
    ∀ o v, (o, v) ∈ l → o.long = name → o.kind = some k :=
  fun o v hm e => h o (words_mem hw (o, v) hm) e

theorem create_eq (hr : Spec.Line.ReadSpec rd) {ws : List Text} {c : Command} :
    (subScan rd createDecl ws).bind (·.create rd) = .ok c ↔ Spec.Line.Names rd "create" ws c := by
  rw [bind_ok]
  simp only [subScan_eq wf_create]
  have key : ∀ {l : Given'} {ps f ds} (o : Create), Words Spec.Line.create ws l ps → Fine rd l →
      (Parsed.create rd ⟨names l, f :: ds⟩ = .ok (.create o) ↔
        Value rd l "version" 2 o.version.toNat ∧ Value rd l "capacity" 10000 o.capacity.toNat ∧
        Value rd l "probability" Spec.Line.percent.toNat o.probability.toNat ∧
        Value rd l "opt-lvl" 0 o.optimize.toNat ∧ o.file = String.ofList f ∧
        o.dataset = ds.map String.ofList) := by
    intro l ps f ds o hw hl
    rw [value_iff hl (p := ⟨names l, f :: ds⟩) rfl (kind_of hw (k := .u8) (by decide +kernel))
        u8Of_reads (s := ['2']) (by decide),
      value_iff hl (p := ⟨names l, f :: ds⟩) rfl (kind_of hw (k := .usize) (by decide +kernel))
        usizeOf_reads (s := ['1', '0', '0', '0', '0']) (by decide),
      value_iff hl (p := ⟨names l, f :: ds⟩) rfl (kind_of hw (k := .f64) (by decide +kernel))
        f64Of_reads (s := ['0', '.', '0', '1']) (by rw [f64Of, hr.percent, Option.getD_some]),
      value_iff hl (p := ⟨names l, f :: ds⟩) rfl (kind_of hw (k := .u8) (by decide +kernel))
        u8Of_reads (s := ['0']) (by decide)]
    rcases o with ⟨o1, o2, o3, o4, o5, o6⟩
    simp only [Parsed.create, Except.ok.injEq, Command.create.injEq, Create.mk.injEq,
      BitVec.toNat_inj]
    constructor
    · rintro ⟨h1, h2, h3, h4, h5, h6⟩
      exact ⟨h1, h2, h3, h4, h5.symm, h6.symm⟩
    · rintro ⟨h1, h2, h3, h4, h5, h6⟩
      exact ⟨h1, h2, h3, h4, h5.symm, h6.symm⟩
  constructor
  · rintro ⟨a, ⟨l, ps, hw, hl, hp, rfl⟩, hc⟩
    rcases ps with _ | ⟨f, ds⟩
    · cases hc
    · obtain ⟨o, rfl⟩ : ∃ o, c = .create o := by
        simp only [Parsed.create, Except.ok.injEq] at hc
        exact ⟨_, hc.symm⟩
      obtain ⟨h1, h2, h3, h4, h5, h6⟩ := (key o hw hl).mp hc
      rw [posOk_path rfl rfl] at hp
      exact .create hw hl (by simpa using hp) h1 h2 h3 h4 h5 h6
  · rintro h
    generalize hn : "create" = name at h
    cases h with
    | @create ws l f ds o hw hl hf h1 h2 h3 h4 h5 h6 =>
      exact ⟨_, ⟨l, f :: ds, hw, hl, (posOk_path rfl rfl).mpr (by simpa using hf), rfl⟩,
        (key o hw hl).mpr ⟨h1, h2, h3, h4, h5, h6⟩⟩
    | insert => exact absurd hn (by decide)
    | check => exact absurd hn (by decide)
    | bench => exact absurd hn (by decide)
    | «show» => exact absurd hn (by decide)

theorem insert_eq {ws : List Text} {c : Command} :
    (subScan rd insertDecl ws).bind (·.insert) = .ok c ↔ Spec.Line.Names rd "insert" ws c := by
  rw [bind_ok]
  simp only [subScan_eq wf_insert]
  have key : ∀ {l : Given'} {f is} (o : Insert),
      (Parsed.insert ⟨names l, f :: is⟩ = .ok (.insert o) ↔
        (o.stdin = true ↔ Given l "stdin") ∧ o.file = String.ofList f ∧
        o.inputs = is.map String.ofList) := by
    intro l f is o
    rw [← given_iff (p := ⟨names l, f :: is⟩) rfl]
    rcases o with ⟨o1, o2, o3⟩
    simp only [Parsed.insert, Except.ok.injEq, Command.insert.injEq, Insert.mk.injEq,
      Bool.coe_iff_coe]
    constructor
    · rintro ⟨h1, h2, h3⟩; exact ⟨h1.symm, h2.symm, h3.symm⟩
    · rintro ⟨h1, h2, h3⟩; exact ⟨h1.symm, h2.symm, h3.symm⟩
  constructor
  · rintro ⟨a, ⟨l, ps, hw, hl, hp, rfl⟩, hc⟩
    rcases ps with _ | ⟨f, is⟩
    · cases hc
    · obtain ⟨o, rfl⟩ : ∃ o, c = .insert o := by
        simp only [Parsed.insert, Except.ok.injEq] at hc
        exact ⟨_, hc.symm⟩
      obtain ⟨h1, h2, h3⟩ := (key o).mp hc
      exact .insert hw hl h1 h2 h3
  · rintro h
    generalize hn : "insert" = name at h
    cases h with
    | create => exact absurd hn (by decide)
    | @insert ws l f is o hw hl h1 h2 h3 =>
      exact ⟨_, ⟨l, f :: is, hw, hl, posOk_any rfl rfl, rfl⟩, (key o).mpr ⟨h1, h2, h3⟩⟩
    | check => exact absurd hn (by decide)
    | bench => exact absurd hn (by decide)
    | «show» => exact absurd hn (by decide)

theorem check_eq {ws : List Text} {c : Command} :
    (subScan rd checkDecl ws).bind (·.check) = .ok c ↔ Spec.Line.Names rd "check" ws c := by
  rw [bind_ok]
  simp only [subScan_eq wf_check]
  have key : ∀ {l : Given'} {f is} (o : Check),
      (Parsed.check ⟨names l, f :: is⟩ = .ok (.check o) ↔
        (o.stdin = true ↔ Given l "stdin") ∧ (o.silent = true ↔ Given l "silent") ∧
        (o.verify = true ↔ Given l "verify") ∧ o.file = String.ofList f ∧
        o.inputs = is.map String.ofList) := by
    intro l f is o
    rw [← given_iff (p := ⟨names l, f :: is⟩) rfl, ← given_iff (p := ⟨names l, f :: is⟩) rfl,
      ← given_iff (p := ⟨names l, f :: is⟩) rfl]
    rcases o with ⟨o1, o2, o3, o4, o5⟩
    simp only [Parsed.check, Except.ok.injEq, Command.check.injEq, Check.mk.injEq,
      Bool.coe_iff_coe]
    constructor
    · rintro ⟨h1, h2, h3, h4, h5⟩; exact ⟨h1.symm, h2.symm, h3.symm, h4.symm, h5.symm⟩
    · rintro ⟨h1, h2, h3, h4, h5⟩; exact ⟨h1.symm, h2.symm, h3.symm, h4.symm, h5.symm⟩
  constructor
  · rintro ⟨a, ⟨l, ps, hw, hl, hp, rfl⟩, hc⟩
    rcases ps with _ | ⟨f, is⟩
    · cases hc
    · obtain ⟨o, rfl⟩ : ∃ o, c = .check o := by
        simp only [Parsed.check, Except.ok.injEq] at hc
        exact ⟨_, hc.symm⟩
      obtain ⟨h1, h2, h3, h4, h5⟩ := (key o).mp hc
      exact .check hw hl h1 h2 h3 h4 h5
  · rintro h
    generalize hn : "check" = name at h
    cases h with
    | create => exact absurd hn (by decide)
    | insert => exact absurd hn (by decide)
    | @check ws l f is o hw hl h1 h2 h3 h4 h5 =>
      exact ⟨_, ⟨l, f :: is, hw, hl, posOk_any rfl rfl, rfl⟩, (key o).mpr ⟨h1, h2, h3, h4, h5⟩⟩
    | bench => exact absurd hn (by decide)
    | «show» => exact absurd hn (by decide)

theorem optional_iff {l : Given'} (hl : Fine rd l) {name : String}
    {k : Spec.Line.Kind} (hk : ∀ o v, (o, v) ∈ l → o.long = name → o.kind = some k)
    {f : Text → Nat} (hf : ∀ v n, Reads rd k v n → f v = n) {x : Option Nat} :
    (((names l).lookup name.toList).map f = x) ↔
      (∀ n, x = some n → Value rd l name n n ∧ Given l name) ∧ (x = none → ¬ Given l name) := by
  by_cases h : Given l name
  · obtain ⟨o, v, h, rfl⟩ := h
    rw [lookup_some hl.1 h, Option.map_some]
    obtain ⟨m, hm⟩ := hl.2 o v h k (hk o v h rfl)
    have hg : Given l o.long := ⟨o, v, h, rfl⟩
    constructor
    · rintro rfl
      refine ⟨?_, by simp⟩
      intro n e
      cases e
      rw [hf v m hm]
      exact ⟨.inl ⟨o, v, k, h, rfl, hk o v h rfl, hm⟩, hg⟩
    · rintro ⟨h1, h2⟩
      rcases x with _ | n
      · exact absurd hg (h2 rfl)
      · obtain ⟨h3, _⟩ := h1 n rfl
        rcases h3 with ⟨o', v', k', h4, h5, h6, h7⟩ | ⟨_, h4⟩
        · have := lookup_some hl.1 h4
          rw [h5, lookup_some hl.1 h] at this
          cases this
          rw [hk _ _ h4 h5] at h6
          cases h6
          rw [hf v n h7]
        · exact absurd rfl (h4 o v h)
  · rw [lookup_none (fun o v h1 h2 => h ⟨o, v, h1, h2⟩), Option.map_none]
    constructor
    · rintro rfl; exact ⟨by simp, fun _ => h⟩
    · rintro ⟨h1, _⟩
      rcases x with _ | n
      · rfl
      · exact absurd (h1 n rfl).2 h

theorem bench_eq (hr : Spec.Line.ReadSpec rd) {ws : List Text} {c : Command} :
    (subScan rd benchDecl ws).bind (·.bench rd) = .ok c ↔ Spec.Line.Names rd "bench" ws c := by
  rw [bind_ok]
  simp only [subScan_eq wf_bench]
  have key : ∀ {l : Given'} {ps} (o : Benchmark), Words Spec.Line.bench ws l ps → Fine rd l →
      (Parsed.bench rd ⟨names l, ps⟩ = .ok (.bench o) ↔
        Value rd l "size-mb" 100 o.sizeMb.toNat ∧
        ((∀ n, o.testSize = some n → Value rd l "test-size" n n ∧ Given l "test-size") ∧
        (o.testSize = none → ¬ Given l "test-size")) ∧
        Value rd l "runs" 50 o.runs ∧
        Value rd l "fp-tol" Spec.Line.fifth.toNat o.fpTol.toNat ∧
        Value rd l "version" 2 o.version.toNat ∧
        Value rd l "fpp" Spec.Line.permille.toNat o.fpp.toNat ∧
        Value rd l "opt" 0 o.opt.toNat ∧
        o.file = ps.head?.map String.ofList) := by
    intro l ps o hw hl
    rw [value_iff hl (p := ⟨names l, ps⟩) rfl (kind_of hw (k := .usize) (by decide +kernel))
        usizeOf_reads (s := ['1', '0', '0']) (by decide),
      ← optional_iff hl (kind_of hw (k := .usize) (by decide +kernel)) usizeOf_reads,
      value_iff hl (p := ⟨names l, ps⟩) rfl (kind_of hw (k := .u32) (by decide +kernel))
        u32Of_reads (s := ['5', '0']) (by decide),
      value_iff hl (p := ⟨names l, ps⟩) rfl (kind_of hw (k := .f64) (by decide +kernel))
        f64Of_reads (s := ['0', '.', '2']) (by rw [f64Of, hr.fifth, Option.getD_some]),
      value_iff hl (p := ⟨names l, ps⟩) rfl (kind_of hw (k := .u8) (by decide +kernel))
        u8Of_reads (s := ['2']) (by decide),
      value_iff hl (p := ⟨names l, ps⟩) rfl (kind_of hw (k := .f64) (by decide +kernel))
        f64Of_reads (s := ['0', '.', '0', '0', '1']) (by rw [f64Of, hr.permille, Option.getD_some]),
      value_iff hl (p := ⟨names l, ps⟩) rfl (kind_of hw (k := .u8) (by decide +kernel))
        u8Of_reads (s := ['0']) (by decide)]
    rcases o with ⟨o1, o2, o3, o4, o5, o6, o7, o8⟩
    simp only [Parsed.bench, Except.ok.injEq, Command.bench.injEq, Benchmark.mk.injEq,
      BitVec.toNat_inj]
    constructor
    · rintro ⟨h1, h2, h3, h4, h5, h6, h7, h8⟩
      exact ⟨h1, h2, h3, h4, h5, h6, h7, h8.symm⟩
    · rintro ⟨h1, h2, h3, h4, h5, h6, h7, h8⟩
      exact ⟨h1, h2, h3, h4, h5, h6, h7, h8.symm⟩
  constructor
  · rintro ⟨a, ⟨l, ps, hw, hl, hp, rfl⟩, hc⟩
    obtain ⟨o, rfl⟩ : ∃ o, c = .bench o := by
      simp only [Parsed.bench, Except.ok.injEq] at hc
      exact ⟨_, hc.symm⟩
    obtain ⟨h1, ⟨h2, h2'⟩, h3, h4, h5, h6, h7, h8⟩ := (key o hw hl).mp hc
    exact .bench hw hl ((posOk_one rfl rfl).mp hp) h1 h2 h2' h3 h4 h5 h6 h7 h8
  · rintro h
    generalize hn : "bench" = name at h
    cases h with
    | create => exact absurd hn (by decide)
    | insert => exact absurd hn (by decide)
    | check => exact absurd hn (by decide)
    | @bench ws l ps o hw hl hp h1 h2 h2' h3 h4 h5 h6 h7 h8 =>
      exact ⟨_, ⟨l, ps, hw, hl, (posOk_one rfl rfl).mpr hp, rfl⟩,
        (key o hw hl).mpr ⟨h1, ⟨h2, h2'⟩, h3, h4, h5, h6, h7, h8⟩⟩
    | «show» => exact absurd hn (by decide)

theorem show_eq {ws : List Text} {c : Command} :
    (subScan rd showDecl ws).bind (·.show) = .ok c ↔ Spec.Line.Names rd "show" ws c := by
  rw [bind_ok]
  simp only [subScan_eq wf_show]
  constructor
  · rintro ⟨a, ⟨l, ps, hw, hl, hp, rfl⟩, hc⟩
    rw [posOk_one rfl rfl] at hp
    rcases ps with _ | ⟨f, _ | ⟨g, ps⟩⟩
    · cases hc
    · obtain rfl : l = [] := by
        rcases l with _ | ⟨x, l⟩
        · rfl
        · exact absurd (words_mem hw x (by simp)) (by simp)
      simp only [Parsed.show, Except.ok.injEq] at hc
      rw [← hc]
      exact .show hw
    · simp at hp
  · rintro h
    generalize hn : "show" = name at h
    cases h with
    | create => exact absurd hn (by decide)
    | insert => exact absurd hn (by decide)
    | check => exact absurd hn (by decide)
    | bench => exact absurd hn (by decide)
    | @«show» ws f hw =>
      exact ⟨_, ⟨[], [f], hw, ⟨by simp, by simp⟩, (posOk_one rfl rfl).mpr (by simp), rfl⟩, rfl⟩

theorem parseCommand_eq (hr : Spec.Line.ReadSpec rd) {ws : List Text} {c : Command} :
    parseCommand rd ws = .ok c ↔
      ∃ name ws', ws = String.toList name :: ws' ∧ Spec.Line.Names rd name ws' c := by
  have e1 : "create".toList = Name.create := by decide +kernel
  have e2 : "insert".toList = Name.insert := by decide +kernel
  have e3 : "check".toList = Name.check := by decide +kernel
  have e4 : "bench".toList = Name.bench := by decide +kernel
  have e5 : "show".toList = Name.show := by decide +kernel
  constructor
  · intro h
    rcases ws with _ | ⟨w, ws⟩
    · cases h
    · rw [parseCommand] at h
      split at h
      next e => exact ⟨_, ws, by rw [e, ← e1], (create_eq hr).mp h⟩
      split at h
      next e => exact ⟨_, ws, by rw [e, ← e2], insert_eq.mp h⟩
      split at h
      next e => exact ⟨_, ws, by rw [e, ← e3], check_eq.mp h⟩
      split at h
      next e => exact ⟨_, ws, by rw [e, ← e4], (bench_eq hr).mp h⟩
      split at h
      next e => exact ⟨_, ws, by rw [e, ← e5], show_eq.mp h⟩
      split at h
      · cases h
      · cases h
  · rintro ⟨name, ws, rfl, h⟩
    rw [parseCommand]
    have h' := h
    cases h' with
    | create =>
      rw [e1, if_pos rfl]; exact (create_eq hr).mpr h
    | insert =>
      rw [e2, if_neg (by decide), if_pos rfl]; exact insert_eq.mpr h
    | check =>
      rw [e3, if_neg (by decide), if_neg (by decide), if_pos rfl]; exact check_eq.mpr h
    | bench =>
      rw [e4, if_neg (by decide), if_neg (by decide), if_neg (by decide), if_pos rfl]
      exact (bench_eq hr).mpr h
    | «show» =>
      rw [e5, if_neg (by decide), if_neg (by decide), if_neg (by decide), if_neg (by decide),
        if_pos rfl]
      exact show_eq.mpr h

theorem names_word {name : String} {ws : List Text} {c : Command}
    (h : Spec.Line.Names rd name ws c) : ¬ Dashed name.toList := by
  rw [← shape_word]
  cases h <;> decide +kernel

theorem parse_eq (hr : Spec.Line.ReadSpec rd) {ws : List Text} {a : Args} :
    parseArgs rd ws = .ok a ↔ Spec.Line.Means rd ws a.verbose a.jobs a.command := by
  have key : ∀ {l : Given'} {ws₁ : List Text}, Words Spec.Line.before ws₁ l [] → Fine rd l →
      ((⟨names l, []⟩ : Parsed).flag Name.verbose = true ↔ Given l "verbose") ∧
      ∀ n, Value rd l "jobs" 2 n ↔
        (usizeOf (((⟨names l, []⟩ : Parsed).get Name.jobs).getD ['2'])).toNat = n := by
    intro l ws₁ hw hl
    have e1 : "verbose".toList = Name.verbose := by decide +kernel
    have e2 : "jobs".toList = Name.jobs := by decide +kernel
    refine ⟨by rw [← e1, given_iff (p := ⟨names l, []⟩) rfl], fun n => ?_⟩
    rw [value_iff hl (p := ⟨names l, []⟩) rfl (kind_of hw (k := .usize) (by decide +kernel))
        usizeOf_reads (s := ['2']) (by decide), e2]
  rw [parseArgs]
  constructor
  · intro h
    rcases hs : scan rd argsDecl true none ws ⟨[], []⟩ with e | ⟨p, ws'⟩
    · rw [hs] at h; cases h
    · rw [hs] at h
      obtain ⟨ws₁, ws₂, l, rfl, hw, hn, hl, _, e⟩ := (scan_before wf_args).mp hs
      cases e
      simp only at h
      rcases hc : parseCommand rd ws' with e | c
      · rw [hc] at h; cases h
      · rw [hc] at h
        simp only [Except.ok.injEq] at h
        subst h
        obtain ⟨name, ws'', rfl, hN⟩ := (parseCommand_eq hr).mp hc
        obtain ⟨k1, k2⟩ := key hw hl.2
        exact ⟨ws₁, name, ws'', l, rfl, hw, hn, hl.2, k1, (k2 _).mpr rfl, hN⟩
  · rintro ⟨ws₁, name, ws₂, l, rfl, hw, hn, hl, hv, hj, hN⟩
    obtain ⟨k1, k2⟩ := key hw hl
    have hs : scan rd argsDecl true none (ws₁ ++ name.toList :: ws₂) ⟨[], []⟩ =
        .ok (addTo ⟨[], []⟩ l, name.toList :: ws₂) :=
      (scan_before wf_args).mpr ⟨ws₁, name.toList :: ws₂, l, rfl, hw, hn, ⟨by simp, hl⟩,
        by simpa using names_word hN, rfl⟩
    rw [hs]
    simp only
    rw [(parseCommand_eq hr).mpr ⟨name, ws₂, rfl, hN⟩]
    simp only
    rcases a with ⟨a1, a2, a3⟩
    simp only [Except.ok.injEq, Args.mk.injEq, and_true]
    refine ⟨?_, (k2 _).mp hj⟩
    rw [← Bool.coe_iff_coe]
    exact k1.trans hv.symm

end Line
end Cli
end Poppy

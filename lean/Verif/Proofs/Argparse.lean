import Verif.Model.Argparse
import Mathlib.Data.List.Nodup
import Mathlib.Data.List.TakeWhile
/-!
Lemmas about the parsing of command lines (Model/Argparse.lean) and the specification of what a command line means.
-/
namespace ABX.Argparse
open Database (Text)

namespace Spec
/-- a text that does not begin with '-' -/
def Value (v : Text) : Prop := v.head? ≠ some '-'

/-- a program: strings of options are different and begin with one or two '-'; the names under which values are stored are different; the positional arguments that may be missing come last, and there is another one -/
structure Sane (P : Parser) : Prop where
  keys : (P.opts.flatMap (·.strings)).Nodup
  shape : ∀ o ∈ P.opts, ∀ s ∈ o.strings, '=' ∉ s ∧ ((s.length = 2 ∧ s.head? = some '-' ∧ s[1]? ≠ some '-') ∨ (2 < s.length ∧ s.head? = some '-' ∧ s[1]? = some '-'))
  dests : (P.pos.map (·.dest) ++ P.opts.map (·.dest)).Nodup
  order : ∃ a b, P.pos = a ++ b ∧ a ≠ [] ∧ (∀ p ∈ a, p.may = false) ∧ ∀ p ∈ b, p.may = true

/-- how many positional arguments must be given -/
def must (P : Parser) : Nat := (P.pos.filter (fun p => !p.may)).length

/-- the beginning of exactly one string of an option, longer than "--" -/
def Abbrev (P : Parser) (s : Text) (o : Opt) : Prop :=
  2 < s.length ∧ s.head? = some '-' ∧ s[1]? = some '-' ∧ '=' ∉ s ∧ o ∈ P.opts ∧ ∃ full ∈ o.strings, s <+: full ∧ ∀ o' ∈ P.opts, ∀ full' ∈ o'.strings, s <+: full' → full' = full

/-- a name of an option -/
def Names (P : Parser) (s : Text) (o : Opt) : Prop := o ∈ P.opts ∧ (s ∈ o.strings ∨ Abbrev P s o)

/-- an option with its arguments -/
structure Group where
  opt : Opt
  args : List Text

/-- the option takes that many arguments, and they are integers if it needs integers -/
def Fits (isInt : Text → Bool) (g : Group) : Prop :=
  (match g.opt.nargs with
  | .flag => g.args = []
  | .one => g.args.length = 1
  | .plus => g.args ≠ []
  | _ => False) ∧ (g.opt.int = true → ∀ v ∈ g.args, isInt v = true)

/-- how an option with its arguments is written: a name and then the arguments, which do not begin with '-'; a name, '=' and the argument; a name of one letter and directly the argument -/
inductive Form (P : Parser) (g : Group) : List Text → Prop
  | apart {s : Text} (h : Names P s g.opt) (hv : ∀ v ∈ g.args, Value v) : Form P g (s :: g.args)
  | joined {s v : Text} (h : Names P s g.opt) (hv : g.args = [v]) : Form P g [s ++ '=' :: v]
  | glued {c : Char} {v : Text} (h : g.opt ∈ P.opts) (hs : ['-', c] ∈ g.opt.strings) (hv : g.args = [v]) (h0 : v ≠ []) (h1 : v.head? ≠ some '=') : Form P g [['-', c] ++ v]

/-- several options, one after the other -/
inductive Written (P : Parser) : List Group → List Text → Prop
  | nil : Written P [] []
  | cons {g : Group} {gs : List Group} {l l' : List Text} (h : Form P g l) (hs : Written P gs l') : Written P (g :: gs) (l ++ l')

/-- the values that are stored: those of the positional arguments in their order, and for each option those of the last time it is written -/
structure Means (P : Parser) (vs : List Text) (gs : List Group) (ns : List (Text × List Text)) : Prop where
  pos : ∀ (i : Nat) (p : Pos), P.pos[i]? = some p → ns.lookup p.dest = (vs[i]?).map (fun v => [v])
  opt : ∀ o ∈ P.opts, ns.lookup o.dest = ((gs.filter (fun g => g.opt = o)).getLast?).map (·.args)
end Spec
open Spec

/-! ### the table of options -/

theorem table_keys (P : Parser) : P.table.map (·.1) = P.opts.flatMap (·.strings) := by
  unfold Parser.table
  rw [List.map_flatMap]
  congr 1
  funext o
  rw [List.map_map]
  exact List.map_id' _

theorem mem_table {P : Parser} {s : Text} {o : Opt} : (s, o) ∈ P.table ↔ o ∈ P.opts ∧ s ∈ o.strings := by
  unfold Parser.table
  simp only [List.mem_flatMap, List.mem_map, Prod.mk.injEq]
  constructor
  · rintro ⟨o', h1, s', h2, rfl, rfl⟩; exact ⟨h1, h2⟩
  · rintro ⟨h1, h2⟩; exact ⟨o, h1, s, h2, rfl, rfl⟩

theorem lookup_of_mem {α β : Type} [BEq α] [LawfulBEq α] : ∀ {l : List (α × β)} {a : α} {b : β}, (l.map (·.1)).Nodup → (a, b) ∈ l → l.lookup a = some b
  | [], _, _, _, h => by cases h
  | (c, d) :: l, a, b, hn, h => by
    rw [List.map_cons, List.nodup_cons] at hn
    rw [List.lookup_cons]
    by_cases hac : a = c
    · subst hac
      rw [beq_self_eq_true]
      rcases List.mem_cons.mp h with h | h
      · rw [(Prod.mk.inj h).2]
      · exact absurd (List.mem_map.mpr ⟨_, h, rfl⟩) hn.1
    · have : (a == c) = false := by simpa using hac
      rw [this]
      rcases List.mem_cons.mp h with h | h
      · exact absurd (Prod.mk.inj h).1 hac
      · exact lookup_of_mem hn.2 h

theorem lookup_none {α β : Type} [BEq α] [LawfulBEq α] {l : List (α × β)} {a : α} (h : ∀ p ∈ l, p.1 ≠ a) : l.lookup a = none := by
  rw [List.lookup_eq_none_iff]
  intro p hp
  simpa using fun e => h p hp e.symm

theorem lookup_some {α β : Type} [BEq α] [LawfulBEq α] : ∀ {l : List (α × β)} {a : α} {b : β}, l.lookup a = some b → (a, b) ∈ l
  | [], _, _, h => by cases h
  | (c, d) :: l, a, b, h => by
    rw [List.lookup_cons] at h
    by_cases hac : a = c
    · subst hac
      rw [beq_self_eq_true] at h
      rw [Option.some.inj h]
      exact List.mem_cons_self
    · have : (a == c) = false := by simpa using hac
      rw [this] at h
      exact List.mem_cons_of_mem _ (lookup_some h)

theorem table_lookup {P : Parser} (hP : Sane P) {s : Text} {o : Opt} (ho : o ∈ P.opts) (hs : s ∈ o.strings) : P.table.lookup s = some o :=
  lookup_of_mem (by rw [table_keys]; exact hP.keys) (mem_table.mpr ⟨ho, hs⟩)

/-! ### names of options -/

theorem partition_none {s : Text} (h : '=' ∉ s) : partition s = (s, none) := by
  unfold partition
  have : s.dropWhile (· ≠ '=') = [] := by
    refine List.dropWhile_eq_nil_iff.mpr fun c hc => ?_
    simpa using fun e : c = '=' => h (e ▸ hc)
  rw [this]

theorem partition_some {s v : Text} (h : '=' ∉ s) : partition (s ++ '=' :: v) = (s, some v) := by
  have h1 : ∀ s : Text, '=' ∉ s → (s ++ '=' :: v).dropWhile (· ≠ '=') = '=' :: v ∧ (s ++ '=' :: v).takeWhile (· ≠ '=') = s := by
    intro s
    induction s with
    | nil => intro _; constructor <;> simp
    | cons c s ih =>
      intro h
      rw [List.mem_cons, not_or] at h
      obtain ⟨i1, i2⟩ := ih h.2
      have hc : decide (c ≠ '=') = true := by simpa using fun e => h.1 e.symm
      constructor
      · rw [List.cons_append, List.dropWhile_cons, if_pos hc, i1]
      · rw [List.cons_append, List.takeWhile_cons, if_pos hc, i2]
  unfold partition
  rw [(h1 s h).1, (h1 s h).2]

theorem abbrev_tuples {P : Parser} (hP : Sane P) {s : Text} {o : Opt} (h : Abbrev P s o) {t : Text} (ht : (partition t).1 = s) (hd : "--".toList.isPrefixOf t = true) :
    ∃ full, optionTuples P t = [⟨some o, full, (partition t).2.isSome, (partition t).2⟩] := by
  obtain ⟨-, -, -, -, ho, full, hf, hpre, huniq⟩ := h
  refine ⟨full, ?_⟩
  unfold optionTuples
  rw [if_pos hd, ht]
  have hm : (full, o) ∈ P.table := mem_table.mpr ⟨ho, hf⟩
  have hn : (P.table.map (·.1)).Nodup := by rw [table_keys]; exact hP.keys
  have : P.table.filter (fun p => s.isPrefixOf p.1) = [(full, o)] := by
    have hnf : (P.table.filter (fun p => s.isPrefixOf p.1)).Nodup := List.Nodup.filter _ (List.Nodup.of_map _ hn)
    have hmem : ∀ p, p ∈ P.table.filter (fun p => s.isPrefixOf p.1) ↔ p = (full, o) := by
      intro p
      rw [List.mem_filter]
      constructor
      · rintro ⟨h1, h2⟩
        obtain ⟨q, r⟩ := p
        obtain ⟨g1, g2⟩ := mem_table.mp h1
        have : q = full := huniq r g1 q g2 (by simpa using h2)
        subst this
        have e1 := lookup_of_mem hn h1
        have e2 := lookup_of_mem hn hm
        rw [e1] at e2
        rw [Option.some.inj e2]
      · rintro rfl
        exact ⟨hm, by simpa using hpre⟩
    exact List.perm_singleton.mp ((List.perm_ext_iff_of_nodup hnf (by simp)).mpr (by simpa using hmem))
  rw [this]
  rfl

theorem dashes_prefix {s : Text} (h1 : s.head? = some '-') (h2 : s[1]? = some '-') : "--".toList.isPrefixOf s = true := by
  match s, h1, h2 with
  | a :: b :: s, h1, h2 =>
    simp at h1 h2
    subst h1 h2
    rfl
  | [_], _, h2 => simp at h2

/-- how a name of an option is understood -/
theorem parse_name {P : Parser} (hP : Sane P) {s : Text} {o : Opt} (h : Names P s o) : s ≠ "--".toList ∧ ∃ full, parseOptional P s = .ok (some ⟨some o, full, false, none⟩) := by
  obtain ⟨ho, h⟩ := h
  have key : s ∈ o.strings → s ≠ "--".toList ∧ ∃ full, parseOptional P s = .ok (some ⟨some o, full, false, none⟩) := by
    intro hs
    obtain ⟨he, hsh⟩ := hP.shape o ho s hs
    constructor
    · rintro rfl
      rcases hsh with ⟨-, -, h⟩ | ⟨h, -⟩
      · exact h rfl
      · simp at h
    · refine ⟨s, ?_⟩
      cases s with
      | nil => simp at hsh
      | cons c t =>
        have hc : c = '-' := by rcases hsh with ⟨-, h, -⟩ | ⟨-, h, -⟩ <;> simpa using h
        unfold parseOptional
        dsimp only
        rw [if_neg (by simp [hc]), table_lookup hP ho hs]
  rcases h with hs | ha
  · exact key hs
  · obtain ⟨h1, h2, h3, h4, -, full, hf, hpre, huniq⟩ := id ha
    by_cases hin : ∃ o', P.table.lookup s = some o'
    · obtain ⟨o', ho'⟩ := hin
      obtain ⟨g1, g2⟩ := mem_table.mp (lookup_some ho')
      have := huniq o' g1 s g2 (List.prefix_refl _)
      subst this
      exact key hf
    · refine ⟨fun e => by rw [e] at h1; simp at h1, ?_⟩
      have hnone : P.table.lookup s = none := by
        cases hx : P.table.lookup s with
        | none => rfl
        | some o' => exact absurd ⟨o', hx⟩ hin
      obtain ⟨full', ht⟩ := abbrev_tuples hP ha (t := s) (by rw [partition_none h4]) (dashes_prefix h2 h3)
      rw [partition_none h4] at ht
      refine ⟨full', ?_⟩
      cases s with
      | nil => simp at h1
      | cons c t =>
        have hc : c = '-' := by simpa using h2
        unfold parseOptional
        dsimp only
        rw [if_neg (by simp [hc]), hnone]
        dsimp only
        rw [if_neg (by rintro rfl; simp at h1), partition_none h4]
        dsimp only
        rw [ht]
        rfl

/-- how a name of an option with '=' is understood -/
theorem parse_joined {P : Parser} (hP : Sane P) {s v : Text} {o : Opt} (h : Names P s o) :
    s ++ '=' :: v ≠ "--".toList ∧ ∃ full, parseOptional P (s ++ '=' :: v) = .ok (some ⟨some o, full, true, some v⟩) := by
  obtain ⟨ho, h⟩ := h
  have hne : s ++ '=' :: v ≠ "--".toList := by
    intro e
    have : '=' ∈ "--".toList := by rw [← e]; simp
    simp at this
  have hnokey : P.table.lookup (s ++ '=' :: v) = none := by
    refine lookup_none fun p hp e => ?_
    obtain ⟨q, r⟩ := p
    obtain ⟨g1, g2⟩ := mem_table.mp hp
    dsimp only at e
    have := (hP.shape r g1 q g2).1
    rw [e] at this
    exact this (by simp)
  have key : s ∈ o.strings → ∃ full, parseOptional P (s ++ '=' :: v) = .ok (some ⟨some o, full, true, some v⟩) := by
    intro hs
    obtain ⟨he, hsh⟩ := hP.shape o ho s hs
    refine ⟨s, ?_⟩
    have hpart := partition_some (v := v) he
    cases s with
    | nil => simp at hsh
    | cons c t =>
      have hc : c = '-' := by rcases hsh with ⟨-, h, -⟩ | ⟨-, h, -⟩ <;> simpa using h
      rw [List.cons_append] at hpart hnokey ⊢
      unfold parseOptional
      dsimp only
      rw [if_neg (by simp [hc]), hnokey]
      dsimp only
      rw [if_neg (by simp), hpart, table_lookup hP ho hs]
  refine ⟨hne, ?_⟩
  rcases h with hs | ha
  · exact key hs
  · obtain ⟨h1, h2, h3, h4, -, full, hf, hpre, huniq⟩ := id ha
    by_cases hin : ∃ o', P.table.lookup s = some o'
    · obtain ⟨o', ho'⟩ := hin
      obtain ⟨g1, g2⟩ := mem_table.mp (lookup_some ho')
      have := huniq o' g1 s g2 (List.prefix_refl _)
      subst this
      exact key hf
    · have hnone : P.table.lookup s = none := by
        cases hx : P.table.lookup s with
        | none => rfl
        | some o' => exact absurd ⟨o', hx⟩ hin
      have hpart := partition_some (v := v) h4
      have hd : "--".toList.isPrefixOf (s ++ '=' :: v) = true := dashes_prefix (by rw [List.head?_append, h2]; rfl) (by rw [List.getElem?_append_left (by omega)]; exact h3)
      obtain ⟨full', ht⟩ := abbrev_tuples hP ha (t := s ++ '=' :: v) (by rw [hpart]) hd
      rw [hpart] at ht
      refine ⟨full', ?_⟩
      cases s with
      | nil => simp at h1
      | cons c t =>
        have hc : c = '-' := by simpa using h2
        rw [List.cons_append] at hpart hnokey ht ⊢
        unfold parseOptional
        dsimp only
        rw [if_neg (by simp [hc]), hnokey]
        dsimp only
        rw [if_neg (by simp), hpart]
        dsimp only
        rw [hnone]
        dsimp only
        rw [ht]
        rfl

/-- how a letter with its argument is understood -/
theorem parse_glued {P : Parser} (hP : Sane P) {c : Char} {v : Text} {o : Opt} (ho : o ∈ P.opts) (hs : ['-', c] ∈ o.strings) (h0 : v ≠ []) (h1 : v.head? ≠ some '=') :
    ['-', c] ++ v ≠ "--".toList ∧ parseOptional P (['-', c] ++ v) = .ok (some ⟨some o, ['-', c], false, some v⟩) := by
  obtain ⟨he, hsh⟩ := hP.shape o ho _ hs
  have hc : c ≠ '-' := by
    rcases hsh with ⟨-, -, h⟩ | ⟨h, -⟩
    · simpa using h
    · simp at h
  have hce : c ≠ '=' := by rintro rfl; exact he (by simp)
  have hnd : "--".toList.isPrefixOf (['-', c] ++ v) = false := by
    show (('-' == '-') && (('-' == c) && true)) = false
    simpa using hc.symm
  -- no text with '-', c and more is a string of an option, nor the beginning of one
  have hno : ∀ u : Text, u ≠ [] → ∀ p ∈ P.table, ¬ (['-', c] ++ u) <+: p.1 := by
    rintro u hu ⟨q, r⟩ hp ⟨w, e⟩
    obtain ⟨g1, g2⟩ := mem_table.mp hp
    obtain ⟨-, hsh⟩ := hP.shape r g1 q g2
    dsimp only at e
    rw [← e] at hsh
    rcases hsh with ⟨h, -, -⟩ | ⟨-, -, h⟩
    · have : 0 < u.length := List.length_pos_of_ne_nil hu
      rw [List.length_append, List.length_append, List.length_cons, List.length_singleton] at h
      omega
    · simp at h
      exact hc h
  have hlook : ∀ u : Text, u ≠ [] → P.table.lookup (['-', c] ++ u) = none := fun u hu => lookup_none fun p hp e => hno u hu p hp (by rw [e]; exact List.prefix_refl _)
  refine ⟨fun e => ?_, ?_⟩
  · have := congrArg (fun l => l[1]?) e
    simp at this
    exact hc this
  · have htup : optionTuples P (['-', c] ++ v) = [⟨some o, ['-', c], false, some v⟩] := by
      unfold optionTuples
      rw [if_neg (by rw [hnd]; simp)]
      have hstep : ∀ l : List (Text × Opt), (∀ p ∈ l, ¬ (['-', c] ++ v) <+: p.1) →
          l.filterMap (fun p => if p.1 = (['-', c] ++ v).take 2 then some (⟨some p.2, p.1, false, some ((['-', c] ++ v).drop 2)⟩ : Tok) else if (['-', c] ++ v).isPrefixOf p.1 then some ⟨some p.2, p.1, false, none⟩ else none) =
          (l.filter (fun p => p.1 = ['-', c])).map (fun p => ⟨some p.2, p.1, false, some v⟩) := by
        intro l
        induction l with
        | nil => intro _; rfl
        | cons p l ih =>
          intro h
          rw [List.filterMap_cons, ih (fun q hq => h q (List.mem_cons_of_mem _ hq))]
          have e2 : (['-', c] ++ v).take 2 = ['-', c] := rfl
          have e3 : (['-', c] ++ v).drop 2 = v := rfl
          by_cases hp : p.1 = ['-', c]
          · rw [e2, e3, if_pos hp, List.filter_cons_of_pos (by simpa using hp), List.map_cons]
          · rw [e2, if_neg hp, if_neg (by simpa using h p (by simp)), List.filter_cons_of_neg (by simpa using hp)]
      rw [hstep _ (hno v h0)]
      have hn : (P.table.map (·.1)).Nodup := by rw [table_keys]; exact hP.keys
      have hm : (['-', c], o) ∈ P.table := mem_table.mpr ⟨ho, hs⟩
      have : P.table.filter (fun p => decide (p.1 = ['-', c])) = [(['-', c], o)] := by
        have hnf : (P.table.filter (fun p => decide (p.1 = ['-', c]))).Nodup := List.Nodup.filter _ (List.Nodup.of_map _ hn)
        refine List.perm_singleton.mp ((List.perm_ext_iff_of_nodup hnf (by simp)).mpr fun p => ?_)
        rw [List.mem_filter, List.mem_singleton]
        constructor
        · rintro ⟨g1, g2⟩
          obtain ⟨q, r⟩ := p
          obtain rfl : q = ['-', c] := by simpa using g2
          have e1 := lookup_of_mem hn g1
          rw [lookup_of_mem hn hm] at e1
          rw [Option.some.inj e1]
        · rintro rfl
          exact ⟨hm, by simp⟩
      rw [this]
      rfl
    have hfirst : ∀ e, (partition (['-', c] ++ v)).2 = some e → P.table.lookup (partition (['-', c] ++ v)).1 = none := by
      intro e he
      have hd : (['-', c] ++ v).takeWhile (· ≠ '=') = ['-', c] ++ v.takeWhile (· ≠ '=') := by
        rw [List.cons_append, List.cons_append, List.nil_append, List.takeWhile_cons, if_pos (by simp), List.takeWhile_cons, if_pos (by simpa using hce)]
        rfl
      unfold partition at he ⊢
      cases hx : (['-', c] ++ v).dropWhile (· ≠ '=') with
      | nil => rw [hx] at he; simp at he
      | cons d w =>
        dsimp only
        rw [hd]
        refine hlook _ ?_
        cases v with
        | nil => exact absurd rfl h0
        | cons d v =>
          rw [List.takeWhile_cons, if_pos (by simpa using h1)]
          simp
    have hv := hlook v h0
    show parseOptional P ('-' :: c :: v) = _
    unfold parseOptional
    dsimp only
    rw [if_neg (by simp), show P.table.lookup ('-' :: c :: v) = none from hv]
    dsimp only
    rw [if_neg (by simp)]
    have htup' : optionTuples P ('-' :: c :: v) = [⟨some o, ['-', c], false, some v⟩] := htup
    cases hp : (partition ('-' :: c :: v)).2 with
    | none => dsimp only; rw [htup']
    | some e =>
      have : P.table.lookup (partition ('-' :: c :: v)).1 = none := hfirst e hp
      rw [this]
      dsimp only
      rw [htup']

end ABX.Argparse

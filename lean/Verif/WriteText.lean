import Verif.WriteModel
import Verif.WriteLayout
import Mathlib.Data.Nat.Digits.Defs

/-! # The text printed by `write_model` is a description of a network -/

namespace Nip

open Res Spec

/-- the texts of a variable can be written and read -/
structure NodeRec.Readable (v : NodeRec) : Prop where
  name : IsName v.symbol ∧ ¬ LooksSpecial v.symbol
  nameShort : v.symbol.length ≤ 40
  label : '"' ∉ v.label ∧ '\n' ∉ v.label
  labelShort : v.label.length ≤ 40
  nonempty : v.states ≠ []
  states : ∀ w ∈ v.states, ('"' ∉ w ∧ '\n' ∉ w) ∧ w.any separators.contains = false
  statesShort : ∀ w ∈ v.states, w.length ≤ 40
  posX : v.posX < 2147483648
  posY : v.posY < 2147483648

theorem printNat_number (n : Nat) : IsNumber (printNat n) := by
  refine ⟨[], printNat n, [], [], by simp, Or.inl rfl, ?_, Or.inl ⟨?_, rfl⟩, Or.inl rfl⟩
  · intro c hc
    exact Nat.isDigit_of_mem_toDigits (by decide) (by decide) hc
  · exact Nat.toDigits_ne_nil

theorem printNat_short {n : Nat} (h : n < 2147483648) : (printNat n).length ≤ 10 := Nat.toDigits_length 10 n 10 (by decide) (h.trans (by decide))

section Marks

theorem spell_node : Keyword.spell .node = ['n', 'o', 'd', 'e'] := by decide +kernel
theorem spell_label : Keyword.spell .label = ['l', 'a', 'b', 'e', 'l'] := by decide +kernel
theorem spell_position : Keyword.spell .position = ['p', 'o', 's', 'i', 't', 'i', 'o', 'n'] := by decide +kernel
theorem spell_states : Keyword.spell .states = ['s', 't', 'a', 't', 'e', 's'] := by decide +kernel
theorem spell_next : Keyword.spell .next = ['N', 'I', 'P', '_', 'n', 'e', 'x', 't'] := by decide +kernel
theorem spell_potential : Keyword.spell .potential = ['p', 'o', 't', 'e', 'n', 't', 'i', 'a', 'l'] := by decide +kernel
theorem spell_data : Keyword.spell .data = ['d', 'a', 't', 'a'] := by decide +kernel
theorem spell_net : Keyword.spell .net = ['n', 'e', 't'] := by decide +kernel
theorem spell_nodeSize : Keyword.spell .nodeSize = ['n', 'o', 'd', 'e', '_', 's', 'i', 'z', 'e'] := by decide +kernel

theorem gap_nil : Gap [] := by intro c hc; cases hc

theorem gap_cons {g : List Char} : Gap (' ' :: g) ↔ Gap g := by
  refine ⟨fun h c hc => h c (List.mem_cons_of_mem _ hc), fun h c hc => ?_⟩
  rcases List.mem_cons.1 hc with rfl | hc
  · decide
  · exact h c hc

theorem separators_contains {c : Char} : separators.contains c = true ↔ c ∈ separators := List.contains_iff_mem

theorem open_mem : '(' ∈ separators := by decide
theorem close_mem : ')' ∈ separators := by decide
theorem openBrace_mem : '{' ∈ separators := by decide
theorem closeBrace_mem : '}' ∈ separators := by decide
theorem equals_mem : '=' ∈ separators := by decide
theorem semicolon_mem : ';' ∈ separators := by decide

theorem key_legal (k : Keyword) : (Lexeme.key k).Legal := trivial
theorem mark_legal {c : Char} (h : c ∈ separators) : (Lexeme.mark c).Legal := Or.inl h
theorem bar_legal : (Lexeme.mark '|').Legal := Or.inr rfl

theorem isName_clean {w : List Char} (h : IsName w) : ('"' ∉ w ∧ '\n' ∉ w) ∧ w.any separators.contains = false := by
  obtain ⟨⟨c, r, rfl, hc, hr⟩, _⟩ := h
  have key : ∀ d ∈ c :: r, inName d = true := by
    intro d hd
    rcases List.mem_cons.1 hd with rfl | hd
    · unfold inName Char.isAlphanum; simp [hc]
    · exact hr d hd
  refine ⟨⟨fun h => ?_, fun h => ?_⟩, ?_⟩
  · exact absurd (key _ h) (by decide)
  · exact absurd (key _ h) (by decide)
  · rw [List.any_eq_false]
    intro d hd h
    have h1 := key d hd
    have h2 : d ∈ separators := List.contains_iff_mem.1 h
    have h3 : ∀ e ∈ separators, inName e = false := by decide
    rw [h3 d h2] at h1
    cases h1

theorem keyword_short : ∀ k : Keyword, k.spell.length ≤ 10 := by intro k; cases k <;> decide

theorem mark_closed {c : Char} (h : c ∈ separators) : (Lexeme.mark c).closed = true := List.contains_iff_mem.2 h

end Marks

/-- closes the side conditions on lexemes -/
macro "lexemes" "[" ts:Lean.Parser.Tactic.simpLemma,* "]" : tactic =>
  `(tactic| simp [key_legal, mark_legal, bar_legal, open_mem, close_mem, openBrace_mem, closeBrace_mem, equals_mem, semicolon_mem, gap_nil, gap_cons, $ts,*])

/-- closes the conditions on neighbours -/
macro "apart" "[" ts:Lean.Parser.Tactic.simpLemma,* "]" : tactic =>
  `(tactic| simp [Neighbours, Lexeme.hides, Lexeme.isSeparator, mark_closed, Lexeme.closed, open_mem, close_mem, openBrace_mem, closeBrace_mem, equals_mem, semicolon_mem, $ts,*])

/-- closes the conditions on lengths -/
macro "short" : tactic =>
  `(tactic| (simp only [itemsText, List.flatMap_cons, List.flatMap_nil, List.append_nil, Lexeme.spell, spell_node, spell_label, spell_position, spell_states, spell_next, spell_potential, spell_data, spell_net, spell_nodeSize, String.reduceToList, List.length_append, List.length_cons,
      List.length_nil, List.length_replicate]; omega))

/-- the description of a variable -/
def printedNode (next : Option (List Char)) (v : NodeRec) : NodeText :=
  { discrete := false, name := v.symbol
    fields := [.label v.label, .position (printNat v.posX) (printNat v.posY), .states v.states] ++ (next.map NodeField.next).toList }

theorem printNode_laid {nodes : List NodeRec} {next : Nat → Option Nat} {v : NodeRec} (hv : v.Readable) {name : Option (List Char)}
    (hn : (next v.id = none ∧ name = none) ∨ ∃ u n, next v.id = some u ∧ textsOf nodes u = ok n ∧ name = some n.symbol ∧ n.Readable)
    {out : List Char} {ts : List Lexeme} (h : Laid 0 out ts) :
    ∃ out', printNode nodes next v out = ok out' ∧ Laid 0 out' (ts ++ (printedNode name v).lexemes) := by
  have hx := printNat_short hv.posX
  have hy := printNat_short hv.posY
  have hs := hv.nameShort
  have hl := hv.labelShort
  have ln : (Lexeme.name v.symbol).Legal := hv.name
  have lx : (Lexeme.number (printNat v.posX)).Legal := printNat_number _
  have ly : (Lexeme.number (printNat v.posY)).Legal := printNat_number _
  have ll : (Lexeme.text v.label).Legal := hv.label
  have s1 := h.line (by decide) gap_nil
  have s2 := s1.emitLine (b := [(.key .node, [' ']), (.name v.symbol, [])]) (by lexemes [ln]) (by apart [])
    (by short) gap_nil
  have s3 := s2.emitLine (b := [(.mark '{', [])]) (by lexemes []) (by apart []) (by short) (g := [' ', ' ', ' ', ' ']) (by lexemes [])
  have s4 := s3.emitLine (b := [(.key .label, [' ']), (.mark '=', [' ']), (.text v.label, []), (.mark ';', [])]) (by lexemes [ll]) (by apart [])
    (by short) (g := [' ', ' ', ' ', ' ']) (by lexemes [])
  have s5 := s4.emitLine (b := [(.key .position, [' ']), (.mark '=', [' ']), (.mark '(', []), (.number (printNat v.posX), [' ']), (.number (printNat v.posY), []),
    (.mark ')', []), (.mark ';', [])]) (by lexemes [lx, ly]) (by apart [])
    (by short) (g := [' ', ' ', ' ', ' ']) (by lexemes [])
  have s6 := s5.emit (b := [(.key .states, [' ']), (.mark '=', [' ']), (.mark '(', [])]) (by lexemes []) (by apart [])
  have hpos : 0 < v.states.length := List.length_pos_of_ne_nil hv.nonempty
  generalize hts : ts ++ [Lexeme.key .node, .name v.symbol, .mark '{'] ++ (NodeField.label v.label).lexemes ++
    (NodeField.position (printNat v.posX) (printNat v.posY)).lexemes ++ [.key .states, .mark '=', .mark '('] = ts6
  generalize ho : out ++ "\nnode ".toList ++ v.symbol ++ "\n{\n    label = \"".toList ++ v.label ++ "\";\n    position = (".toList ++ printNat v.posX ++
    " ".toList ++ printNat v.posY ++ ");\n    states = (".toList = out6
  have s7 : Laid 19 out6 ts6 := by
    refine (s6.weaken (by short)).of_eq ?_ ?_
    · rw [← ho]; simp [itemsText, Lexeme.spell, spell_node, spell_label, spell_position, spell_states, spell_next, spell_potential, spell_data, spell_net, spell_nodeSize]
    · rw [← hts]; simp [NodeField.lexemes]
  have s8 : ∃ out7, loop (v.states.length - 1) (fun j out => do
      let s ← rd v.states j
      ok (out ++ " \"".toList ++ s ++ "\" \n              ".toList)) out6 = ok out7 ∧
      Laid 19 out7 (ts6 ++ (v.states.take (v.states.length - 1)).map .text) := by
    have := loop_inv (P := fun j o => Laid 19 o (ts6 ++ (v.states.take j).map .text)) (n := v.states.length - 1) (s := out6) (f := fun j out => do
      let s ← rd v.states j
      ok (out ++ " \"".toList ++ s ++ "\" \n              ".toList)) (by simpa using s7) (by
        intro j o hj hlay
        have hjl : j < v.states.length := by omega
        rw [rd_lt hjl]
        refine ⟨_, rfl, ?_⟩
        have hm := List.getElem_mem hjl
        have l1 : (Lexeme.text v.states[j]).Legal := (hv.states _ hm).1
        have l2 : (Lexeme.text v.states[j]).hides = false := (hv.states _ hm).2
        have l3 := hv.statesShort _ hm
        have q1 := (hlay.space (g := [' ']) (by lexemes [])).emitLine (b := [(.text v.states[j], [' '])]) (by lexemes [l1]) ⟨by simp, l2⟩
          (by short) (g := List.replicate 14 ' ') (by lexemes [List.replicate])
        refine (q1.weaken (by simp)).of_eq ?_ ?_
        · simp [itemsText, Lexeme.spell, List.replicate]
        · rw [List.take_succ_eq_append_getElem hjl]
          simp only [List.map_append, List.map_cons, List.map_nil, List.append_assoc])
    exact this
  obtain ⟨out7, e7, s8⟩ := s8
  have hlast : v.states.length - 1 < v.states.length := by omega
  have hm := List.getElem_mem hlast
  have l1 : (Lexeme.text v.states[v.states.length - 1]).Legal := (hv.states _ hm).1
  have l2 : v.states[v.states.length - 1].any separators.contains = false := (hv.states _ hm).2
  have l3 := hv.statesShort _ hm
  have s9 := (s8.space (g := [' ']) (by lexemes [])).emitLine (b := [(.text v.states[v.states.length - 1], [' ']), (.mark ')', []), (.mark ';', [])])
    (by lexemes [l1]) ⟨by simp, by (intro h; rw [Lexeme.hides, l2] at h; cases h), by apart []⟩ (by short) gap_nil
  have hall : v.states.take (v.states.length - 1) ++ [v.states[v.states.length - 1]] = v.states := by
    rw [← List.take_succ_eq_append_getElem hlast]
    exact List.take_of_length_le (by omega)
  have s10 : Laid 0 (out7 ++ " \"".toList ++ v.states[v.states.length - 1] ++ "\" );\n".toList) (ts6 ++ v.states.map .text ++ [.mark ')', .mark ';']) := by
    refine (s9.weaken (by simp)).of_eq ?_ ?_
    · simp [itemsText, Lexeme.spell]
    · have : v.states.map Lexeme.text = (v.states.take (v.states.length - 1)).map .text ++ [.text v.states[v.states.length - 1]] := by
        rw [← List.map_singleton (f := Lexeme.text), ← List.map_append, hall]
      rw [this]
      simp only [List.map_cons, List.map_nil, List.append_assoc, List.cons_append, List.nil_append]
  unfold printNode
  simp only [ho]
  rw [e7, ok_bind, rd_lt hlast, ok_bind]
  rcases hn with ⟨hn, rfl⟩ | ⟨u, n, hn, hu, rfl, hr⟩
  · rw [hn]
    refine ⟨_, rfl, ?_⟩
    have s11 := s10.emitLine (b := [(.mark '}', [])]) (by lexemes []) (by apart []) (by short) gap_nil
    refine (s11.weaken (by simp)).of_eq ?_ ?_
    · simp [itemsText, Lexeme.spell]
    · rw [← hts]; simp [printedNode, NodeText.lexemes, NodeField.lexemes]
  · rw [hn]
    simp only [hu, ok_bind]
    refine ⟨_, rfl, ?_⟩
    have hc := isName_clean hr.name.1
    have hns := hr.nameShort
    have lt : (Lexeme.text n.symbol).Legal := hc.1
    have s11 := (s10.space (g := [' ', ' ', ' ', ' ']) (by lexemes [])).emitLine (b := [(.key .next, [' ']), (.mark '=', [' ']), (.text n.symbol, []), (.mark ';', [])])
      (by lexemes [lt]) (by apart []) (by short) gap_nil
    have s12 := s11.emitLine (b := [(.mark '}', [])]) (by lexemes []) (by apart []) (by short) gap_nil
    refine (s12.weaken (by simp)).of_eq ?_ ?_
    · simp [itemsText, Lexeme.spell, spell_node, spell_label, spell_position, spell_states, spell_next, spell_potential, spell_data, spell_net, spell_nodeSize]
    · rw [← hts]; simp [printedNode, NodeText.lexemes, NodeField.lexemes]

end Nip

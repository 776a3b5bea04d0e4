import Verif.Lemmas.XmlMono
import Verif.Lemmas.Map
import Verif.Props.Fixture

/-! # C81: well-formed XML text is read as the document it is

For every well-formed document (`Text.Nodes`), with any layout of its tags, any quotes and references, sections, comments,
instructions and a document type, the tokens that the decoder delivers are the tokens of the document: elements by
local names whatever their prefixes, attributes with values in which references are resolved and line ends are `\n`, in the
namespaces that are in scope. -/

namespace Xgen.C81
open Xml Text
variable [NameChars]

/-- A decoder delivers some tokens and is then another one. -/
def Reads : Dec → List Token → Dec → Prop
  | d, [], d' => d = d'
  | d, t :: ts, d' => ∃ e, token d = some (t, e) ∧ Reads e ts d'

theorem Reads.append {d e f : Dec} {ts us : List Token} (h : Reads d ts e) (h' : Reads e us f) : Reads d (ts ++ us) f := by
  induction ts generalizing d with
  | nil => cases h; exact h'
  | cons t ts ih =>
    obtain ⟨g, h1, h2⟩ := h
    exact ⟨g, h1, ih h2⟩

/-- The bindings of the decoder are those in scope. -/
def Same (ns : GoMap Str) (s : Scope) : Prop := ∀ p, ns.get? p = (s.find? fun e => e.1 = p).map (·.2)

omit [NameChars] in
theorem same_nil : Same [] [] := fun _ => rfl

omit [NameChars] in
theorem same_set {ns : GoMap Str} {s : Scope} (h : Same ns s) (k v : Str) : Same (ns.set k v) ((k, v) :: s) := by
  intro p
  rw [GoMap.get?_set, List.find?_cons]
  by_cases hp : p = k
  · simp [hp]
  · have : ¬ k = p := fun e => hp e.symm
    simp [hp, this, h p]

/-- What the decoder reads of an attribute. -/
def raw (a : AttrText) : Name × Str := (⟨a.name.pre, a.name.loc⟩, a.value.map Piece.means)

omit [NameChars] in
theorem same_bindings (as : List AttrText) (t : Tag) (ht : t.attrs = as) {ns : GoMap Str} {s : Scope} (h : Same ns s) :
    Same (bindings (as.map raw) ns) (t.scope s) := by
  unfold Tag.scope Tag.declares
  rw [ht]
  clear ht
  induction as generalizing ns s with
  | nil => exact h
  | cons a as ih =>
    simp only [List.map_cons, bindings, List.foldl_cons]
    rw [List.filterMap_cons]
    by_cases h1 : a.name.pre = c!"xmlns"
    · have e : (raw a).1.space = c!"xmlns" := h1
      rw [if_pos e]
      simp only [if_pos h1, List.reverse_cons, List.append_assoc, List.singleton_append]
      exact ih (same_set h _ _)
    · have e : ¬ (raw a).1.space = c!"xmlns" := h1
      rw [if_neg e]
      by_cases h2 : a.name.pre = [] ∧ a.name.loc = c!"xmlns"
      · have e : (raw a).1.space = [] ∧ (raw a).1.local = c!"xmlns" := h2
        rw [if_pos e]
        simp only [if_neg h1, if_pos h2, List.reverse_cons, List.append_assoc, List.singleton_append]
        exact ih (same_set h _ _)
      · have e : ¬ ((raw a).1.space = [] ∧ (raw a).1.local = c!"xmlns") := h2
        rw [if_neg e]
        simp only [if_neg h1, if_neg h2]
        exact ih h

omit [NameChars] in
theorem translate_raw {ns : GoMap Str} {s : Scope} (h : Same ns s) (a : AttrText) : translate ns (raw a) = a.means s := by
  unfold translate AttrText.means space raw
  by_cases h1 : a.name.pre = c!"xmlns" ∨ a.name.pre = []
  · simp only [if_pos h1, if_pos h1.symm]
  · simp only [if_neg h1, if_neg (fun h => h1 (Or.symm h))]
    by_cases h2 : a.name.pre = c!"xml"
    · simp only [if_pos h2]
    · simp only [if_neg h2, h a.name.pre]
      cases s.find? (fun e => decide (e.1 = a.name.pre)) <;> rfl

theorem tag_reads (t : Tag) (ht : t.Ok) (empty : Bool) (ns : GoMap Str) (st : List (Name × GoMap Str)) (r : Str)
    {s : Scope} (h : Same ns s) :
    token ⟨'<' :: (t.written ++ tagEnd empty r), ns, st, none⟩ =
      some (.start t.name.loc (t.attrs.map (AttrText.means (t.scope s))),
        ⟨r, bindings (t.attrs.map raw) ns, (⟨t.name.pre, t.name.loc⟩, ns) :: st,
          if empty then some ⟨t.name.pre, t.name.loc⟩ else none⟩) := by
  obtain ⟨h1, h2, h3⟩ := ht
  have hw : t.written ++ tagEnd empty r = t.name.written ++ (t.attrs.flatMap AttrText.written ++ t.space ++ tagEnd empty r) := by
    simp [Tag.written]
  have hs : Stops (t.attrs.flatMap AttrText.written ++ t.space ++ tagEnd empty r) := by
    cases ha : t.attrs with
    | nil =>
      cases empty with
      | true => exact attr_cons_stop h3 (by decide)
      | false => exact attr_cons_stop h3 (by decide)
    | cons a as =>
      have hok := h2 a (by simp [ha])
      obtain ⟨c, sep, hsep⟩ : ∃ c sep, a.sep = c :: sep := List.exists_cons_of_ne_nil hok.1
      have hb := hok.2.1
      rw [hsep] at hb
      obtain ⟨d, r', he, hd⟩ := attr_cons_stop (s := [c]) (c := '>') (r := []) (fun x hx => hb x (by simp at hx; simp [hx])) (by decide)
      refine ⟨c, sep ++ (a.name.written ++ a.before ++ '=' :: a.after ++ a.quote :: pieces a.value ++ [a.quote] ++
        as.flatMap AttrText.written ++ t.space ++ tagEnd empty r), ?_, ?_⟩
      · simp [AttrText.written, hsep]
      · simp only [List.singleton_append, List.cons.injEq] at he
        rw [he.1]; exact hd
  have hns := nsname_of h1 hs
  obtain ⟨c, cs, hc, hcs⟩ := written_ne h1
  have hst := start_ne hcs
  have hat := attrs_of empty t.space r h3 t.attrs h2
    ((t.attrs.flatMap AttrText.written ++ t.space ++ tagEnd empty r).length + 1) (by
      have : ∀ l : List AttrText, (∀ a ∈ l, a.Ok) → l.length ≤ (l.flatMap AttrText.written).length := by
        intro l
        induction l with
        | nil => simp
        | cons a l ih =>
          intro hl
          have := ih (fun x hx => hl x (by simp [hx]))
          simp only [List.length_cons, List.flatMap_cons, List.length_append, AttrText.written]
          omega
      have := this t.attrs h2
      simp only [List.length_append]
      omega)
  rw [hw]
  simp only [token, if_true]
  rw [hc, List.cons_append] at hns ⊢
  simp only [markup, if_neg hst.1, if_neg hst.2.2.1, if_neg hst.2.2.2.1, hns, hat]
  have ht : (t.attrs.map fun a => ((⟨a.name.pre, a.name.loc⟩ : Name), a.value.map Piece.means)) = t.attrs.map raw := rfl
  rw [ht, List.map_map]
  have hm : (t.attrs.map (translate (bindings (t.attrs.map raw) ns) ∘ raw)) = t.attrs.map (AttrText.means (t.scope s)) :=
    List.map_congr_left fun a _ => translate_raw (same_bindings _ t rfl h) a
  rw [hm]

theorem close_reads (q : QName) (hq : q.Ok) (sp : Str) (hs : Blank sp) (ns ns' : GoMap Str) (st : List (Name × GoMap Str)) (r : Str) :
    token ⟨'<' :: '/' :: (q.written ++ sp ++ '>' :: r), ns, (⟨q.pre, q.loc⟩, ns') :: st, none⟩ =
      some (.stop q.loc, ⟨r, ns', st, none⟩) := by
  have hns := nsname_of (r := sp ++ '>' :: r) hq (attr_cons_stop hs (by decide))
  simp only [token, markup, if_true, List.append_assoc, hns]
  rw [skip_blank hs (by decide)]
  simp [popElement]

/-- The decoder reads a document up to what follows it. -/
theorem reads (doc : Nodes) (hd : doc.Ok) (ns : GoMap Str) (st : List (Name × GoMap Str)) (r : Str)
    (hr : r = [] ∨ ∃ r', r = '<' :: r') {s : Scope} (h : Same ns s) :
    Reads ⟨doc.written ++ r, ns, st, none⟩ (doc.tokens s) ⟨r, ns, st, none⟩ := by
  induction doc generalizing ns st r s with
  | nil => rfl
  | elem t b sp n ih1 ih2 =>
    obtain ⟨h1, h2, h3, h4⟩ := hd
    have hw : (Nodes.elem t b sp n).written ++ r =
        '<' :: (t.written ++ tagEnd false (b.written ++ '<' :: '/' :: (t.name.written ++ sp ++ '>' :: (n.written ++ r)))) := by
      simp [Nodes.written, tagEnd]
    rw [hw]
    refine ⟨_, tag_reads t h1 false ns st _ h, ?_⟩
    refine (ih1 h2 _ _ _ (.inr ⟨_, rfl⟩) (same_bindings _ t rfl h)).append ⟨_, close_reads t.name h1.1 sp h3 _ _ _ _, ?_⟩
    exact ih2 h4 ns st r hr h
  | empty t n ih =>
    obtain ⟨h1, h2⟩ := hd
    have hw : (Nodes.empty t n).written ++ r = '<' :: (t.written ++ tagEnd true (n.written ++ r)) := by
      simp [Nodes.written, tagEnd]
    rw [hw]
    refine ⟨_, tag_reads t h1 true ns st _ h, ?_⟩
    refine ⟨⟨n.written ++ r, ns, st, none⟩, ?_, ih h2 ns st r hr h⟩
    simp [token, popElement]
  | text ps n ih =>
    obtain ⟨h1, h2, h3, h4, h5⟩ := hd
    have hend : n.written ++ r = [] ∨ ∃ r', n.written ++ r = '<' :: r' := by
      cases n with
      | nil => exact hr
      | elem t b sp n => exact .inr ⟨_, by rw [Nodes.written]; rfl⟩
      | empty t n => exact .inr ⟨_, by rw [Nodes.written]; rfl⟩
      | text ps n => exact h4.elim
      | cdata ps n => exact .inr ⟨_, by rw [Nodes.written]; rfl⟩
      | comment s n => exact .inr ⟨_, by rw [Nodes.written]; rfl⟩
      | instruction t sp s n => exact .inr ⟨_, by rw [Nodes.written]; rfl⟩
      | declaration q s n => exact .inr ⟨_, by rw [Nodes.written]; rfl⟩
      | doctype i n => exact .inr ⟨_, by rw [Nodes.written]; rfl⟩
    have hw : (Nodes.text ps n).written ++ r = pieces ps ++ (n.written ++ r) := by simp [Nodes.written]
    have ht := text_of (q := none) (rest := n.written ++ r) (.inl ⟨rfl, rfl, hend⟩) ps h2 (fun _ => h3)
    refine ⟨⟨n.written ++ r, ns, st, none⟩, ?_, ih h5 ns st r hr h⟩
    rw [hw]
    obtain ⟨p, ps', rfl⟩ : ∃ p ps', ps = p :: ps' := List.exists_cons_of_ne_nil h1
    obtain ⟨c, cs, hc, hne⟩ : ∃ c cs, pieces (p :: ps') = c :: cs ∧ c ≠ '<' := by
      have hp := h2 p (by simp)
      cases p with
      | char c => exact ⟨c, pieces ps', rfl, hp.2.1⟩
      | crlf => exact ⟨'\r', '\n' :: pieces ps', rfl, by decide⟩
      | named e => exact ⟨'&', e.1 ++ [';'] ++ pieces ps', by simp [pieces, Piece.written], by decide⟩
      | number hex up ds => exact ⟨'&', (Piece.number hex up ds).written.drop 1 ++ pieces ps', by
          cases hex <;> simp [pieces, Piece.written], by decide⟩
    rw [hc, List.cons_append] at ht ⊢
    simp only [token, if_neg hne, ht]
    rfl
  | cdata ps n ih =>
    obtain ⟨h1, h2, h3⟩ := hd
    have hw : (Nodes.cdata ps n).written ++ r = '<' :: '!' :: '[' :: (c!"CDATA[" ++ (pieces ps ++ ']' :: ']' :: '>' :: (n.written ++ r))) := by
      have e1 : (c!"<![CDATA[") = '<' :: '!' :: '[' :: c!"CDATA[" := by decide
      have e2 : (c!"]]>") = [']', ']', '>'] := by decide
      rw [Nodes.written, e1, e2]; simp
    have hc := cdata_of (n.written ++ r) ps h1 h2
    refine ⟨⟨n.written ++ r, ns, st, none⟩, ?_, ih h3 ns st r hr h⟩
    rw [hw]
    have hp : hasPrefix (c!"CDATA[" ++ (pieces ps ++ ']' :: ']' :: '>' :: (n.written ++ r))) c!"CDATA[" = true := by
      simp [hasPrefix]
    have hdr : (c!"CDATA[" ++ (pieces ps ++ ']' :: ']' :: '>' :: (n.written ++ r))).drop 6 =
      pieces ps ++ ']' :: ']' :: '>' :: (n.written ++ r) := rfl
    have e3 : ('!' = '/') = False := by decide
    have e4 : ('!' = '?') = False := by decide
    have e5 : ('[' = '-') = False := by decide
    simp only [token, markup, e3, e4, e5, if_true, if_false, hp, hdr, hc]
    rfl
  | comment c n ih =>
    obtain ⟨h1, h2⟩ := hd
    have hw : (Nodes.comment c n).written ++ r = '<' :: '!' :: '-' :: '-' :: (c ++ '-' :: '-' :: '>' :: (n.written ++ r)) := by
      have e1 : (c!"<!--") = ['<', '!', '-', '-'] := by decide
      have e2 : (c!"-->") = ['-', '-', '>'] := by decide
      rw [Nodes.written, e1, e2]; simp
    refine ⟨⟨n.written ++ r, ns, st, none⟩, ?_, ih h2 ns st r hr h⟩
    rw [hw]
    have e3 : ('!' = '/') = False := by decide
    have e4 : ('!' = '?') = False := by decide
    simp only [token, markup, e3, e4, if_true, if_false, comment_ok h1]
    rfl
  | instruction t sp c n ih =>
    obtain ⟨h1, h2, h3, h4, h5, h6⟩ := hd
    have hw : (Nodes.instruction t sp c n).written ++ r = '<' :: '?' :: (t ++ (sp ++ (c ++ '?' :: '>' :: (n.written ++ r)))) := by
      have e1 : (c!"<?") = ['<', '?'] := by decide
      have e2 : (c!"?>") = ['?', '>'] := by decide
      rw [Nodes.written, e1, e2]; simp
    refine ⟨⟨n.written ++ r, ns, st, none⟩, ?_, ih h6 ns st r hr h⟩
    rw [hw]
    have hst : Stops (sp ++ (c ++ '?' :: '>' :: (n.written ++ r))) := by
      cases c with
      | nil => exact attr_cons_stop h3 (by decide)
      | cons d c =>
        have hsp := (h5 d rfl).1
        obtain ⟨x, xs, rfl⟩ := List.exists_cons_of_ne_nil hsp
        obtain ⟨y, r', he, hd⟩ := attr_cons_stop (s := [x]) (c := '>') (r := []) (fun z hz => h3 z (by simp at hz; simp [hz])) (by decide)
        simp only [List.singleton_append, List.cons.injEq] at he
        exact ⟨x, _, rfl, he.1 ▸ hd⟩
    have hsk : skip (sp ++ (c ++ '?' :: '>' :: (n.written ++ r))) = c ++ '?' :: '>' :: (n.written ++ r) := by
      cases c with
      | nil => exact skip_blank h3 (by decide)
      | cons d c =>
        refine skip_blank h3 ?_
        cases hb : isBlank d with
        | false => rfl
        | true => exact ((h5 d rfl).2 (fun x hx => by simp at hx; rw [hx]; exact isBlank_iff.mp hb)).elim
    have e4 : ('?' = '/') = False := by decide
    simp only [token, markup, e4, if_true, if_false, name_of h1 hst, hsk]
    rw [instruction_of _ _ _ h4 (by decide)]
    simp only [h2, false_and, if_false]
  | declaration q c n ih =>
    obtain ⟨h1, h2, h3⟩ := hd
    have hw : (Nodes.declaration q c n).written ++ r =
        '<' :: '?' :: (c!"xml" ++ (c!" " ++ ((c!"version=" ++ q :: c!"1.0" ++ q :: c) ++ '?' :: '>' :: (n.written ++ r)))) := by
      have e1 : (c!"<?xml version=") = '<' :: '?' :: (c!"xml" ++ (c!" " ++ c!"version=")) := by decide
      have e2 : (c!"?>") = ['?', '>'] := by decide
      rw [Nodes.written, e1, e2]; simp
    refine ⟨⟨n.written ++ r, ns, st, none⟩, ?_, ih h3 ns st r hr h⟩
    rw [hw]
    have hst : Stops (c!" " ++ ((c!"version=" ++ q :: c!"1.0" ++ q :: c) ++ '?' :: '>' :: (n.written ++ r))) :=
      ⟨' ', _, rfl, by decide⟩
    have hn : NCName c!"xml" := by
      refine ⟨'x', ['m', 'l'], by decide, .inl (by decide), ?_⟩
      intro d hd
      simp only [List.mem_cons, List.not_mem_nil, or_false] at hd
      rcases hd with rfl | rfl <;> exact .inl (.inl (by decide))
    have hsk : skip (c!" " ++ ((c!"version=" ++ q :: c!"1.0" ++ q :: c) ++ '?' :: '>' :: (n.written ++ r))) =
        (c!"version=" ++ q :: c!"1.0" ++ q :: c) ++ '?' :: '>' :: (n.written ++ r) := rfl
    have hq : '?' ∉ c!"version=" ++ q :: c!"1.0" ++ q :: c := by
      have e1 : (c!"version=") = ['v', 'e', 'r', 's', 'i', 'o', 'n', '='] := by decide
      have e2 : (c!"1.0") = ['1', '.', '0'] := by decide
      rw [e1, e2]
      rcases h1 with rfl | rfl <;> simp [h2]
    have hp : param c!"version" (c!"version=" ++ q :: c!"1.0" ++ q :: c) = c!"1.0" := by
      have e2 : (c!"1.0") = ['1', '.', '0'] := by decide
      rcases h1 with rfl | rfl <;> simp [param, hasPrefix, e2]
    have hdl : (c!"version=" ++ q :: c!"1.0" ++ q :: c ++ c!"?>").dropLast.dropLast = c!"version=" ++ q :: c!"1.0" ++ q :: c := by
      have : (c!"?>") = ['?'] ++ ['>'] := by decide
      rw [this, ← List.append_assoc, List.dropLast_concat, List.dropLast_concat]
    have e4 : ('?' = '/') = False := by decide
    simp only [token, markup, e4, if_true, if_false, name_of hn hst, hsk]
    rw [instruction_of _ _ _ hq (by decide)]
    simp only [hdl, hp, ne_eq, not_true_eq_false, and_false, if_false]
  | doctype i n ih =>
    obtain ⟨h1, h2⟩ := hd
    have hw : (Nodes.doctype i n).written ++ r = '<' :: '!' :: 'D' :: (c!"OCTYPE" ++ (i.written ++ '>' :: (n.written ++ r))) := by
      have e1 : (c!"<!DOCTYPE") = '<' :: '!' :: 'D' :: c!"OCTYPE" := by decide
      rw [Nodes.written, e1]; simp
    have hdir : directive .plain 0 (c!"OCTYPE" ++ (i.written ++ '>' :: (n.written ++ r))) = some (n.written ++ r) := by
      have : directive .plain 0 (c!"OCTYPE" ++ (i.written ++ '>' :: (n.written ++ r))) =
        directive .plain 0 (i.written ++ '>' :: (n.written ++ r)) := rfl
      rw [this, directive_of i h1]
      simp [directive]
    refine ⟨⟨n.written ++ r, ns, st, none⟩, ?_, ih h2 ns st r hr h⟩
    rw [hw]
    have e3 : ('!' = '/') = False := by decide
    have e4 : ('!' = '?') = False := by decide
    have e5 : ('D' = '-') = False := by decide
    have e6 : ('D' = '[') = False := by decide
    simp only [token, markup, e3, e4, e5, e6, if_true, if_false, hdir]
    rfl

/-- A decoder that is given more steps than it has characters and pending end tags delivers all its tokens. -/
theorem tokens_enough {n m : Nat} : ∀ {d : Dec}, d.size < n → d.size < m → tokens n d = tokens m d := by
  induction n generalizing m with
  | zero => intro d h; cases h
  | succ n ih =>
    intro d h h'
    cases m with
    | zero => cases h'
    | succ m =>
      unfold tokens
      cases ht : token d with
      | none => rfl
      | some x =>
        obtain ⟨t, e⟩ := x
        have := (token_inv ht).1
        simp only
        rw [ih (m := m) (by omega) (by omega)]

/-- The bound in `decode` is no bound. -/
theorem decode_enough (s : Str) {n : Nat} (h : 2 * s.length < n) : tokens n { rest := s } = decode s :=
  tokens_enough (by simpa [Dec.size] using h) (by simp [Dec.size])

theorem Reads.length {d e : Dec} {ts : List Token} (h : Reads d ts e) : ts.length + e.size ≤ d.size := by
  induction ts generalizing d with
  | nil => cases h; simp
  | cons t ts ih =>
    obtain ⟨f, h1, h2⟩ := h
    have := (token_inv h1).1
    have := ih h2
    simp only [List.length_cons]
    omega

theorem Reads.tokens {d e : Dec} {ts : List Token} (h : Reads d ts e) (n : Nat) :
    Xml.tokens (ts.length + n) d = ts ++ Xml.tokens n e := by
  induction ts generalizing d with
  | nil => cases h; simp
  | cons t ts ih =>
    obtain ⟨f, h1, h2⟩ := h
    have e1 : (t :: ts).length + n = (ts.length + n) + 1 := by simp only [List.length_cons]; omega
    rw [e1, Xml.tokens, h1]
    simp only
    rw [ih h2]
    rfl

/-- What a decoder delivers before the first nil token. -/
theorem Reads.decode {s : Str} {ts : List Token} {e : Dec} (h : Reads { rest := s } ts e) (he : token e = none) : decode s = ts := by
  have h1 := h.length
  have h2 : Dec.size { rest := s } = 2 * s.length := by simp [Dec.size]
  have h3 : 2 * s.length + 1 = ts.length + ((2 * s.length - ts.length) + 1) := by omega
  unfold Xml.decode
  rw [h3, h.tokens, Xml.tokens, he, List.append_nil]

/-- C81: a well-formed document is read as what it means. -/
theorem decode_written (doc : Nodes) (h : doc.Ok) : decode doc.written = doc.tokens [] := by
  have := reads doc h [] [] [] (.inl rfl) same_nil
  rw [List.append_nil] at this
  exact this.decode rfl

/-! ## Deciding whether a document is well-formed, for the examples -/

instance (c : Char) : Decidable (Allowed c) := by unfold Allowed; infer_instance
instance (s : Str) : Decidable (Blank s) := by unfold Blank; infer_instance
instance (c : Char) : Decidable (NameStart c) := by unfold NameStart; infer_instance
instance (c : Char) : Decidable (NamePart c) := by unfold NamePart; infer_instance
instance : (s : Str) → Decidable (NCName s)
  | [] => isFalse (by rintro ⟨c, cs, h, _⟩; cases h)
  | c :: cs =>
    if h : NameStart c ∧ ∀ c ∈ cs, NamePart c then isTrue ⟨c, cs, rfl, h⟩
    else isFalse (by rintro ⟨d, ds, e, h'⟩; cases e; exact h h')
instance (q : QName) : Decidable q.Ok := by unfold QName.Ok; infer_instance
instance (q : Option Char) (p : Piece) : Decidable (p.Ok q) := by cases p <;> unfold Piece.Ok <;> infer_instance
instance (a : AttrText) : Decidable a.Ok := by unfold AttrText.Ok; infer_instance
instance (t : Tag) : Decidable t.Ok := by unfold Tag.Ok; infer_instance
instance infixDec {α : Type} [DecidableEq α] (s : List α) : (t : List α) → Decidable (s <:+: t)
  | [] => decidable_of_iff (s = []) List.infix_nil.symm
  | a :: t => have := infixDec s t; decidable_of_iff (s <+: a :: t ∨ s <:+: t) List.infix_cons_iff.symm
instance (s : Str) : Decidable (CommentOk s) := by unfold CommentOk; infer_instance
instance (c : Char) : Decidable (Dull c) := by unfold Dull; infer_instance
instance Inner.decOk : (i : Inner) → Decidable i.Ok
  | .nil => isTrue trivial
  | .char c n => have := Inner.decOk n; by unfold Inner.Ok; infer_instance
  | .quoted q s n => have := Inner.decOk n; by unfold Inner.Ok; infer_instance
  | .comment s n => have := Inner.decOk n; by unfold Inner.Ok; infer_instance
  | .nested c b n => have := Inner.decOk n; have := Inner.decOk b; by unfold Inner.Ok; infer_instance
instance (p : Piece) : Decidable (p = .crlf ∨ ∃ c, p = .char c ∧ Allowed c ∧ c ≠ '\r') :=
  match p with
  | .crlf => isTrue (.inl rfl)
  | .char c =>
    if h : Allowed c ∧ c ≠ '\r' then isTrue (.inr ⟨c, rfl, h⟩)
    else isFalse (by rintro (h' | ⟨d, e, h'⟩); cases h'; cases e; exact h h')
  | .named e => isFalse (by rintro (h' | ⟨_, h', _⟩) <;> cases h')
  | .number _ _ _ => isFalse (by rintro (h' | ⟨_, h', _⟩) <;> cases h')
instance (s sp : Str) : Decidable (∀ c, s.head? = some c → sp ≠ [] ∧ ¬ Blank [c]) :=
  match s with
  | [] => isTrue (by intro c h; cases h)
  | c :: s => decidable_of_iff (sp ≠ [] ∧ ¬ Blank [c]) ⟨fun h d e => by cases e; exact h, fun h => h c rfl⟩
instance (n : Nodes) : Decidable n.NoText := by cases n <;> unfold Nodes.NoText <;> infer_instance
instance Nodes.decOk : (n : Nodes) → Decidable n.Ok
  | .nil => isTrue trivial
  | .elem t b sp n => have := Nodes.decOk b; have := Nodes.decOk n; by unfold Nodes.Ok; infer_instance
  | .empty t n => have := Nodes.decOk n; by unfold Nodes.Ok; infer_instance
  | .text ps n => have := Nodes.decOk n; by unfold Nodes.Ok; infer_instance
  | .cdata ps n => have := Nodes.decOk n; by unfold Nodes.Ok; infer_instance
  | .comment s n => have := Nodes.decOk n; by unfold Nodes.Ok; infer_instance
  | .instruction t sp s n => have := Nodes.decOk n; by unfold Nodes.Ok; infer_instance
  | .declaration q s n => have := Nodes.decOk n; by unfold Nodes.Ok; infer_instance
  | .doctype i n => have := Nodes.decOk n; by unfold Nodes.Ok; infer_instance

/-! ## Examples -/

omit [NameChars]

/-- Names in ASCII only, for the examples. -/
@[reducible] def asciiNames : NameChars := ⟨fun _ => false, fun _ => false⟩

/-- Text written plainly. -/
def plain (s : Str) : List Piece := s.map .char

/-- A schema as text, with a declaration, a document type, a comment, an instruction, references, line ends of Windows, a section, both
kinds of quotes, and white space wherever XML allows it. -/
def sample : Nodes :=
  .declaration '"' c!" encoding='UTF-8'" <| .text [.crlf] <|
  .doctype (.char ' ' <| .char 'x' <| .char ' ' <| .quoted '"' c!"a>b" <| .char '[' <| .comment c!" > it's " <|
    .nested 'E' (.char ' ' <| .quoted '\'' c!"<" .nil) <| .char ']' .nil) <|
  .instruction c!"style" c!" " c!"a=b" <|
  .elem { name := ⟨c!"xs", c!"schema"⟩, attrs := [
      { sep := c!"\n ", name := ⟨c!"xmlns", c!"xs"⟩, value := plain c!"http://www.w3.org/2001/XMLSchema" },
      { name := ⟨[], c!"targetNamespace"⟩, before := c!" ", after := c!"\t", quote := '\'', value := plain c!"urn:\"x\"" }], space := c!" " }
    (.text [.crlf, .char ' '] <| .comment c!" types - all " <|
      .elem { name := ⟨c!"xs", c!"element"⟩, attrs := [{ name := ⟨[], c!"name"⟩, value := [.char 'a', .number true true [4, 11], .number false false [0, 9, 8]] },
          { name := ⟨c!"xs", c!"note"⟩, value := [.named (c!"lt", '<'), .char '>', .named (c!"amp", '&')] }] }
        (.text (plain c!"]] >") <| .cdata (plain c!"<b>&]] " ++ [.crlf]) <| .empty { name := ⟨[], c!"any"⟩, space := c!"\n" } .nil) c!" " .nil) [] <|
  .text [.char '\n'] .nil

example : @Nodes.Ok asciiNames sample := by decide +kernel

example : sample.written =
    c!"<?xml version=\"1.0\" encoding='UTF-8'?>\r\n<!DOCTYPE x \"a>b\"[<!-- > it's --><!E '<'>]><?style a=b?>" ++
    c!"<xs:schema\n xmlns:xs=\"http://www.w3.org/2001/XMLSchema\" targetNamespace =\t'urn:\"x\"' >\r\n <!-- types - all -->" ++
    c!"<xs:element name=\"a&#x4B;&#098;\" xs:note=\"&lt;>&amp;\">]] ><![CDATA[<b>&]] \r\n]]><any\n/></xs:element ></xs:schema>\n" := by
  decide +kernel

example : @decode asciiNames sample.written = [.other, .text c!"\n", .other, .other,
    .start c!"schema" [⟨c!"xmlns", c!"xs", c!"http://www.w3.org/2001/XMLSchema"⟩, ⟨[], c!"targetNamespace", c!"urn:\"x\""⟩],
    .text c!"\n ", .other,
    .start c!"element" [⟨[], c!"name", c!"aKb"⟩, ⟨c!"http://www.w3.org/2001/XMLSchema", c!"note", c!"<>&"⟩],
    .text c!"]] >", .text c!"<b>&]] \n", .start c!"any" [], .stop c!"any", .stop c!"element", .stop c!"schema", .text c!"\n"] := by
  decide +kernel

/-- The text of /repo/test/xsd/base64.xsd. -/
def fixture : Str :=
  c!"<schema xmlns=\"http://www.w3.org/2001/XMLSchema\" xmlns:here=\"http://example.org/\" targetNamespace=\"http://example.org/\">\n" ++
  c!"  <simpleType name=\"myType1\">\n" ++
  c!"    <restriction base=\"base64Binary\">\n" ++
  c!"      <length value=\"10\" />\n" ++
  c!"    </restriction>\n" ++
  c!"  </simpleType>\n" ++
  c!"\n" ++
  c!"  <complexType name=\"myType2\">\n" ++
  c!"    <simpleContent>\n" ++
  c!"      <extension base=\"base64Binary\">\n" ++
  c!"        <attribute name=\"length\" type=\"int\"/>\n" ++
  c!"      </extension>\n" ++
  c!"    </simpleContent>\n" ++
  c!"  </complexType>\n" ++
  c!"\n" ++
  c!"  <complexType name=\"myType3\">\n" ++
  c!"    <simpleContent>\n" ++
  c!"      <extension base=\"date\">\n" ++
  c!"        <attribute name=\"length\" type=\"int\"/>\n" ++
  c!"      </extension>\n" ++
  c!"    </simpleContent>\n" ++
  c!"  </complexType>\n" ++
  c!"\n" ++
  c!"  <complexType name=\"myType4\">\n" ++
  c!"    <sequence>\n" ++
  c!"      <element name=\"title\" type=\"string\"/>\n" ++
  c!"      <element name=\"blob\" type=\"base64Binary\"/>\n" ++
  c!"      <element name=\"timestamp\" type=\"dateTime\"/>\n" ++
  c!"    </sequence>\n" ++
  c!"  </complexType>\n" ++
  c!"\n" ++
  c!"  <simpleType name=\"myType5\">\n" ++
  c!"    <restriction base=\"gDay\"/>\n" ++
  c!"  </simpleType>\n" ++
  c!"\n" ++
  c!"  <complexType name=\"MyType6\">\n" ++
  c!"    <attribute name=\"code\">\n" ++
  c!"      <simpleType>\n" ++
  c!"        <restriction base=\"string\">\n" ++
  c!"          <enumeration value=\"value1\"/>\n" ++
  c!"          <enumeration value=\"value2\"/>\n" ++
  c!"        </restriction>\n" ++
  c!"      </simpleType>\n" ++
  c!"    </attribute>\n" ++
  c!"    <attribute name=\"identifier\" type=\"int\"/>\n" ++
  c!"  </complexType>\n" ++
  c!"\n" ++
  c!"  <complexType name=\"MyType7\">\n" ++
  c!"    <simpleContent>\n" ++
  c!"      <extension base=\"string\">\n" ++
  c!"        <attribute type=\"string\" name=\"origin\" use=\"required\"/>\n" ++
  c!"      </extension>\n" ++
  c!"    </simpleContent>\n" ++
  c!"  </complexType>\n" ++
  c!"\n" ++
  c!"  <element name=\"TopLevel\">\n" ++
  c!"    <complexType>\n" ++
  c!"      <complexContent>\n" ++
  c!"        <extension base=\"here:MyType6\">\n" ++
  c!"          <sequence>\n" ++
  c!"            <element name=\"nested\" type=\"here:MyType7\" minOccurs=\"0\" maxOccurs=\"1\" />\n" ++
  c!"            <choice minOccurs=\"0\" maxOccurs=\"unbounded\">\n" ++
  c!"              <element name=\"myType1\" type=\"here:myType1\" />\n" ++
  c!"              <element name=\"myType2\" type=\"here:myType2\" />\n" ++
  c!"            </choice>\n" ++
  c!"          </sequence>\n" ++
  c!"          <attribute name=\"cost\" type=\"double\"/>\n" ++
  c!"          <attribute name=\"LastUpdated\" type=\"dateTime\"/>\n" ++
  c!"        </extension>\n" ++
  c!"      </complexContent>\n" ++
  c!"    </complexType>\n" ++
  c!"  </element>\n" ++
  c!"</schema>"

/-- The decoder reads the fixture of the repository as the tokens from which the model generates the expected outputs. -/
theorem fixture_read : @decode asciiNames fixture = Fixture.document := by decide +kernel

end Xgen.C81

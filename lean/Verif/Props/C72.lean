import Verif.Props.C71

/-! # C72: declared before use

C wants types to be declared before they are used.  If every reference in a schema is to a built-in type or to an earlier
declaration, every type that the generated C file mentions is predefined or declared further up in the file. -/

namespace Xgen.C72
open Core C40 Decl
open C53 (NCName)
open C58 (Legible)
open C59 (anonymous)
open C71

/-! ## Schemas in order -/

/-- Every reference is to an earlier declaration. -/
def Before (lang : Str) : List Decl → List Decl → Prop
  | _, [] => True
  | seen, d :: ds => DeclBound (offers lang seen) d ∧ Before lang (seen ++ [d]) ds

/-- The names with a type to look up: those of elements, attributes and restrictions. -/
def valued : Decl → List Str
  | .simple as (.restriction _ _) => [nameOf as]
  | d => elements d ++ attributes d

/-- The names that the type of an earlier declaration must not have. -/
def fresh : Decl → List Str
  | .simple as (.restriction _ _) => [nameOf as]
  | d => itemNamesOf d

/-- A schema in order. -/
structure Ordered (lang : Str) (ds : List Decl) : Prop where
  refs : Before lang [] ds
  names : ∀ d ∈ ds, ∀ s ∈ types d ++ elements d ++ attributes d ++ groups d ++ attrGroups d ++ anonymous (content d),
    NCName s ∧ Usable lang s
  targets : ∀ d ∈ ds, ∀ s ∈ valued d, ∀ k, getBuildInTypeByLang k lang ≠ some s
  once : ds.Pairwise fun d d' => ∀ s ∈ fresh d', s ∉ typeNamesOf d

/-! ## Trees in order -/

/-- The names of types among components. -/
def typesIn (ns : List (Node Element)) : List Str := (ns.filter typelike).map nodeName
/-- The names of elements and attributes among components. -/
def itemsIn (ns : List (Node Element)) : List Str := (ns.filter fun n => !typelike n).map nodeName
/-- The names with a type to look up. -/
def declaredIn (ns : List (Node Element)) : List Str := (ns.filterMap fun n => C07.declares (some n)).map (·.1)

/-- A type to look up does not come behind a type of the same name. -/
def New (lang : Str) (pre : List (Node Element)) (n : Node Element) : Prop := ∀ d, C07.declares (some n) = some d →
  d.1 ≠ [] ∧ (∀ k, getBuildInTypeByLang k lang ≠ some d.1) ∧
    (d.1 ∈ typesIn pre → d.2 = d.1 ∨ (∃ k, getBuildInTypeByLang k lang = some d.2) ∨ d.1 ∈ declaredIn pre)

/-- Components that only need earlier ones. -/
def InOrder (lang : Str) : List (Node Element) → List (Node Element) → Prop
  | _, [] => True
  | pre, n :: ns => NodeOk lang (typesIn pre) (itemsIn pre) n ∧ New lang pre n ∧ InOrder lang (pre ++ [n]) ns

section
variable {lang : Str}

theorem typesIn_append (a b : List (Node Element)) : typesIn (a ++ b) = typesIn a ++ typesIn b := by simp [typesIn]
theorem itemsIn_append (a b : List (Node Element)) : itemsIn (a ++ b) = itemsIn a ++ itemsIn b := by simp [itemsIn]

theorem InOrder.append {pre a b : List (Node Element)} : InOrder lang pre (a ++ b) ↔ InOrder lang pre a ∧ InOrder lang (pre ++ a) b := by
  induction a generalizing pre with
  | nil => simp [InOrder]
  | cons n a ih => simp [InOrder, ih, and_assoc]

theorem ok_mono {tn tn' : List Str} (h : ∀ s ∈ tn, s ∈ tn') {s : Str} (hs : Ok lang tn s) : Ok lang tn' s :=
  hs.imp id fun hs => hs.imp id fun hs => ⟨h _ hs.1, hs.2⟩

theorem ok0_mono {tn tn' vn vn' : List Str} (h : ∀ s ∈ tn, s ∈ tn') (h' : ∀ s ∈ vn, s ∈ vn') {s : Str} (hs : Ok0 lang tn vn s) : Ok0 lang tn' vn' s :=
  hs.imp (ok_mono h) fun hs => ⟨h' _ hs.1, hs.2⟩

theorem nodeOk_mono {tn tn' vn vn' : List Str} (h : ∀ s ∈ tn, s ∈ tn') (h' : ∀ s ∈ vn, s ∈ vn') {n : Node Element} (hn : NodeOk lang tn vn n) :
    NodeOk lang tn' vn' n := by
  cases n with
  | simple v => exact ⟨hn.1, ok_mono h hn.2.1, fun m hm => ⟨(hn.2.2 m hm).1, ok_mono h (hn.2.2 m hm).2⟩⟩
  | attr v => exact ⟨hn.1, ok_mono h hn.2⟩
  | elem v => exact ⟨hn.1, ok_mono h hn.2⟩
  | complex v =>
    exact ⟨ok_mono h hn.1, fun e he => ok0_mono h h' (hn.2.1 e he), fun e he => ok0_mono h h' (hn.2.2.1 e he), fun e he => ok_mono h (hn.2.2.2.1 e he),
      fun e he => ok_mono h (hn.2.2.2.2 e he)⟩
  | group v => exact ⟨fun e he => ok0_mono h h' (hn.1 e he), fun e he => ok_mono h (hn.2 e he)⟩
  | attrGroup v => exact fun e he => ok0_mono h h' (hn e he)

theorem InOrder.all {pre ns : List (Node Element)} (h : InOrder lang pre ns) : ∀ n ∈ ns, NodeOk lang (typesIn (pre ++ ns)) (itemsIn (pre ++ ns)) n := by
  intro n hn
  obtain ⟨a, b, rfl⟩ := List.append_of_mem hn
  have := (InOrder.append.1 h).2.1
  refine nodeOk_mono (fun s hs => ?_) (fun s hs => ?_) this
  · rw [← List.append_assoc, typesIn_append]; exact List.mem_append_left _ hs
  · rw [← List.append_assoc, itemsIn_append]; exact List.mem_append_left _ hs

theorem declared_ok {tn vn : List Str} {n : Node Element} {d : Str × Str} (h : NodeOk lang tn vn n) (e : C07.declares (some n) = some d) :
    d.2 ≠ [] ∧ Ok lang tn d.2 := by
  refine declares_ok (t := [some n]) (tn := tn) (vn := vn) (fun m hm => ?_) d (by simp [e])
  rw [show nodes [some n] = [n] from rfl, List.mem_singleton] at hm
  rwa [hm]

/-- What a name stands for is there as soon as the name is. -/
theorem InOrder.means {t : Tree} {p q : List (Node Element)} (hs : nodes t = p ++ q) (h : InOrder lang [] (nodes t)) :
    Means lang (typesIn p) (itemsIn p) t := by
  rw [hs] at h
  obtain ⟨hp, hq⟩ := InOrder.append.1 h
  rw [List.nil_append] at hq
  have hd : t.filterMap C07.declares = (p ++ q).filterMap fun n => C07.declares (some n) := by
    rw [← hs]
    unfold Xgen.Decl.nodes
    clear hs h hp hq
    induction t with
    | nil => rfl
    | cons n t ih => cases n <;> simp [ih, C07.declares, List.filterMap_cons]
  intro s h0
  have e : Names.localPart s = s := by
    rcases h0 with h0 | h0
    · exact ok_local h0
    · exact localPart_plain h0.2.colon
  unfold Names.meaning
  rw [e, hd, List.filterMap_append, List.find?_append]
  cases hf : (p.filterMap fun n => C07.declares (some n)).find? (fun d => d.1 = s) with
  | some d =>
    obtain ⟨n, hn, hnd⟩ := List.mem_filterMap.1 (List.mem_of_find?_eq_some hf)
    have := declared_ok (hp.all n hn) hnd
    exact ⟨this.2, fun _ => this.1⟩
  | none =>
    have hno := List.find?_eq_none.1 hf
    have h1 : Ok lang (typesIn p) s := by
      refine h0.resolve_right fun h0 => ?_
      obtain ⟨n, hn, en⟩ := List.mem_map.1 h0.1
      obtain ⟨hn, hn'⟩ := List.mem_filter.1 hn
      cases n with
      | elem v => exact hno (v.name, v.type) (List.mem_filterMap.2 ⟨_, hn, rfl⟩) (decide_eq_true (show v.name = s from en))
      | attr v => exact hno (v.name, v.type) (List.mem_filterMap.2 ⟨_, hn, rfl⟩) (decide_eq_true (show v.name = s from en))
      | _ => cases hn'
    rw [Option.none_or]
    cases hf' : (q.filterMap fun n => C07.declares (some n)).find? (fun d => d.1 = s) with
    | none => exact ⟨h1, id⟩
    | some d =>
      have ed : d.1 = s := of_decide_eq_true (List.find?_some (p := fun d : Str × Str => decide (d.1 = s)) hf')
      obtain ⟨-, A, B, hAB, hA⟩ := List.find?_eq_some_iff_append.1 hf'
      obtain ⟨a, b', rfl, hA', hB'⟩ := List.filterMap_eq_append_iff.1 hAB
      obtain ⟨b, n, c, rfl, hb, hnd, hc⟩ := List.filterMap_eq_cons_iff.1 hB'
      rw [← List.append_assoc] at hq
      obtain ⟨hq1, hn, hnew, -⟩ := (InOrder.append (lang := lang) (pre := p) (a := a ++ b) (b := n :: c)).1 (by simpa using hq)
      have h2 := declared_ok hn hnd
      obtain ⟨n1, n2, n3⟩ := hnew d hnd
      rw [ed] at n1 n2 n3
      rcases h1 with h1 | ⟨k, hk⟩ | h1
      · exact absurd h1 n1
      · exact absurd hk (n2 k)
      · refine ⟨?_, fun _ => h2.1⟩
        rcases n3 (by rw [typesIn_append]; exact List.mem_append_left _ h1.1) with h3 | ⟨k, hk⟩ | h3
        · show Ok lang _ d.2
          rw [h3]; exact .inr (.inr h1)
        · exact .inr (.inl ⟨k, hk⟩)
        · exfalso
          obtain ⟨d', hd', e'⟩ := List.mem_map.1 h3
          rw [List.filterMap_append, List.filterMap_append, hA'] at hd'
          rcases List.mem_append.1 hd' with hd' | hd'
          · exact hno d' hd' (decide_eq_true e')
          · rcases List.mem_append.1 hd' with hd' | hd'
            · have := hA d' hd'
              simp [e'] at this
            · obtain ⟨m, hm, hm'⟩ := List.mem_filterMap.1 hd'
              rw [hb m hm] at hm'
              cases hm'

/-! ## From the schema to the tree -/

theorem of_ok {pre ns : List (Node Element)} (h : ∀ n ∈ ns, NodeOk lang (typesIn pre) (itemsIn pre) n)
    (h' : ∀ n ∈ ns, C07.declares (some n) = none) : InOrder lang pre ns := by
  induction ns generalizing pre with
  | nil => trivial
  | cons n ns ih =>
    refine ⟨h n (by simp), fun d e => (by rw [h' n (by simp)] at e; cases e), ih (fun m hm => ?_) fun m hm => h' m (by simp [hm])⟩
    refine nodeOk_mono (fun s hs => ?_) (fun s hs => ?_) (h m (by simp [hm]))
    · rw [typesIn_append]; exact List.mem_append_left _ hs
    · rw [itemsIn_append]; exact List.mem_append_left _ hs

theorem meets_mono {tn tn' vn vn' : List Str} {R : Targets} (h : ∀ s ∈ tn, s ∈ tn') (h' : ∀ s ∈ vn, s ∈ vn') (hm : Meets lang tn vn R) :
    Meets lang tn' vn' R :=
  ⟨fun v hv => (hm.type v hv).imp id fun x => ⟨h _ x.1, x.2⟩, fun v hv => ⟨h' _ (hm.element v hv).1, (hm.element v hv).2⟩,
    fun v hv => ⟨h' _ (hm.attr v hv).1, (hm.attr v hv).2⟩, fun v hv => ⟨h _ (hm.group v hv).1, (hm.group v hv).2⟩,
    fun v hv => ⟨h _ (hm.attrGroup v hv).1, (hm.attrGroup v hv).2⟩⟩

section
variable {t : Tree} {R : Targets}

/-- What holds of the components so far holds when there are more. -/
theorem later (ht : InOrder lang [] (nodes t)) (hm : Meets lang (typesIn (nodes t)) (itemsIn (nodes t)) R) (more : List (Node Element)) :
    Answers lang (typesIn (nodes t ++ more)) (itemsIn (nodes t ++ more)) R (typeRef lang false t) := by
  have h1 : ∀ s ∈ typesIn (nodes t), s ∈ typesIn (nodes t ++ more) := fun s hs => by rw [typesIn_append]; exact List.mem_append_left _ hs
  have h2 : ∀ s ∈ itemsIn (nodes t), s ∈ itemsIn (nodes t ++ more) := fun s hs => by rw [itemsIn_append]; exact List.mem_append_left _ hs
  exact answers (fun n hn => nodeOk_mono h1 h2 (ht.all n hn)) (meets_mono h1 h2 hm)

theorem nested_mem {ty : Str → Str} {p : Bool} {b : Content} {s : Str} (h : s ∈ anonymous b) : s ∈ typesIn ((nested ty p b).map Node.complex) := by
  rw [← C59.nested_names ty b p] at h
  obtain ⟨c, hc, rfl⟩ := List.mem_map.1 h
  exact List.mem_map.2 ⟨.complex c, List.mem_filter.2 ⟨List.mem_map_of_mem hc, rfl⟩, rfl⟩

theorem nested_order (ht : InOrder lang [] (nodes t)) (hm : Meets lang (typesIn (nodes t)) (itemsIn (nodes t)) R) (b : Content)
    (hb : ContentBound R b) (hg : Shaped (typeRef lang false t) b) (hn : ∀ s ∈ anonymous b, NCName s ∧ Usable lang s) (p : Bool) :
    ∀ more, InOrder lang (nodes t ++ more) ((nested (typeRef lang false t) p b).map Node.complex) := by
  induction b generalizing p with
  | nil => intro more; trivial
  | elem as k ih => exact ih hb.2.2 hg.2 hn p
  | elemAnon as ras fs k ih => exact ih hb.2 hg hn p
  | group as k ih => exact ih hb.2 hg hn p
  | attrGroup as k ih => exact ih hb.2 hg hn p
  | «attribute» as k ih => exact ih hb.2.2 hg hn p
  | attrAnon as b k ih => exact ih hb.2 hg hn p
  | choice as b k ihb ih =>
    intro more
    rw [nested, List.map_append, InOrder.append, List.append_assoc]
    exact ⟨ihb hb.1 hg.1 (fun s hs => hn s (by simp [anonymous, hs])) _ _, ih hb.2 hg.2 (fun s hs => hn s (by simp [anonymous, hs])) _ _⟩
  | ext as b k ihb ih =>
    intro more
    rw [nested, List.map_append, InOrder.append, List.append_assoc]
    exact ⟨ihb hb.2.1 hg.1 (fun s hs => hn s (by simp [anonymous, hs])) _ _, ih hb.2.2 hg.2 (fun s hs => hn s (by simp [anonymous, hs])) _ _⟩
  | restr as fs b k ihb ih =>
    intro more
    rw [nested, List.map_append, InOrder.append, List.append_assoc]
    exact ⟨ihb hb.1 hg.1 (fun s hs => hn s (by simp [anonymous, hs])) _ _, ih hb.2 hg.2 (fun s hs => hn s (by simp [anonymous, hs])) _ _⟩
  | anon as cas b k ihb ih =>
    intro more
    have hn1 : ∀ s ∈ anonymous b, NCName s ∧ Usable lang s := fun s hs => hn s (by simp [anonymous, hs])
    rw [nested, List.map_append, List.map_append, InOrder.append, InOrder.append, List.append_assoc, List.append_assoc]
    refine ⟨⟨ihb hb.1 hg.2.1 hn1 p more, ?_, (fun d e => by cases e), trivial⟩, ih hb.2 hg.2.2 (fun s hs => hn s (by simp [anonymous, hs])) p _⟩
    have h1 := later ht hm (more ++ (nested (typeRef lang false t) p b).map Node.complex)
    refine complex_ok (content_ok h1 b hb.1 hg.2.1 fun s hs => ⟨?_, hn1 s hs⟩) p _
    rw [← List.append_assoc, typesIn_append]
    exact List.mem_append_right _ (nested_mem hs)

theorem decl_order (ht : InOrder lang [] (nodes t)) (hm : Meets lang (typesIn (nodes t)) (itemsIn (nodes t)) R) (d : Decl) (hb : DeclBound R d)
    (hg : d.Regular (typeRef lang false t))
    (hn : ∀ s ∈ types d ++ elements d ++ attributes d ++ groups d ++ attrGroups d ++ anonymous (content d), NCName s ∧ Usable lang s)
    (hv : ∀ s ∈ valued d, ∀ k, getBuildInTypeByLang k lang ≠ some s) (hf : ∀ s ∈ fresh d, s ∉ typesIn (nodes t)) :
    InOrder lang (nodes t) (d.nodes (typeRef lang false t)) := by
  have hall : ∀ n ∈ nodes t, NodeOk lang (typesIn (nodes t)) (itemsIn (nodes t)) n := fun n hn => ht.all n hn
  have single : anonymous (content d) = [] → (∀ as cas b, d ≠ .anon as cas b) → ∀ n ∈ d.nodes (typeRef lang false t),
      NodeOk lang (typesIn (nodes t)) (itemsIn (nodes t)) n := fun h1 h2 =>
    decl_ok (answers hall hm) d hb hg (by rw [h1]; simp) fun as cas b e => absurd e (h2 as cas b)
  have new : ∀ (s : Str) n, (∀ x, C07.declares (some n) = some x → x.1 = s) → s ∈ valued d → NCName s → s ∈ fresh d → New lang (nodes t) n := by
    intro s n h1 h2 h3 h4 x hx
    rw [h1 x hx]
    exact ⟨NCName.ne h3, hv s h2, fun h => absurd h (hf s h4)⟩
  have hnil : nodes t = nodes t ++ [] := by simp
  cases d with
  | simple as b =>
    refine ⟨single rfl (by simp) _ (List.mem_singleton.2 rfl), ?_, trivial⟩
    cases b with
    | restriction ras fs =>
      exact new (nameOf as) _ (fun x hx => by simp only [simpleOf, C07.declares] at hx; cases hx; rfl) (by simp [valued])
        (hn _ (by simp [types])).1 (by simp [fresh])
    | list las => exact fun x hx => by simp [simpleOf, C07.declares] at hx
    | union uas => exact fun x hx => by simp [simpleOf, C07.declares] at hx
  | complex as b =>
    have hs := shaped_regular b hg.2.1
    have hn1 : ∀ s ∈ anonymous b, NCName s ∧ Usable lang s := fun s hs => hn s (by simp [content, hs])
    refine InOrder.append.2 ⟨?_, ?_, (fun x hx => by cases hx), trivial⟩
    · rw [hnil]; exact nested_order ht hm b hb.1 hs hn1 _ []
    · have h1 := later ht hm ((nested (typeRef lang false t) false b).map Node.complex)
      refine complex_ok (content_ok h1 b hb.1 hs fun s hs => ⟨?_, hn1 s hs⟩) _ _
      rw [typesIn_append]
      exact List.mem_append_right _ (nested_mem hs)
  | element as =>
    exact ⟨single rfl (by simp) _ (List.mem_singleton.2 rfl), new (nameOf as) _ (fun x hx => by cases hx; rfl) (by simp [valued, C71.elements])
      (hn _ (by simp [C71.elements])).1 (by simp [fresh, itemNamesOf]), trivial⟩
  | anon as cas b =>
    have hs := shaped_regular b hg.2.2.2.2.1
    have hn1 : ∀ s ∈ anonymous b, NCName s ∧ Usable lang s := fun s hs => hn s (by simp [content, hs])
    have hname := hn (nameOf as) (by simp [C71.elements])
    have h1 := later ht hm ((nested (typeRef lang false t) false b).map Node.complex)
    refine InOrder.append.2 ⟨?_, ?_, (fun x hx => by cases hx), ?_, ?_, trivial⟩
    · rw [hnil]; exact nested_order ht hm b hb.1 hs hn1 _ []
    · refine complex_ok (content_ok h1 b hb.1 hs fun s hs => ⟨?_, hn1 s hs⟩) _ _
      rw [typesIn_append]
      exact List.mem_append_right _ (nested_mem hs)
    · have e : (elementOf (typeRef lang false t) false as).type = typeRef lang false t (nameOf as) := by
        simp [elementOf, hg.2.2.1.1, hg.2.2.1.2.1]
      rw [List.append_assoc]
      have h3 : ∀ s ∈ typesIn (nodes t), s ∈ typesIn (nodes t ++ ((nested (typeRef lang false t) false b).map Node.complex ++
        [Node.complex (complexOf (typeRef lang false t) false (nameOf as) b)])) := fun s hs => by rw [typesIn_append]; exact List.mem_append_left _ hs
      have h4 : ∀ s ∈ itemsIn (nodes t), s ∈ itemsIn (nodes t ++ ((nested (typeRef lang false t) false b).map Node.complex ++
        [Node.complex (complexOf (typeRef lang false t) false (nameOf as) b)])) := fun s hs => by rw [itemsIn_append]; exact List.mem_append_left _ hs
      have h5 : Ok lang (typesIn (nodes t ++ ((nested (typeRef lang false t) false b).map Node.complex ++
        [Node.complex (complexOf (typeRef lang false t) false (nameOf as) b)]))) (nameOf as) :=
        .inr (.inr ⟨by rw [typesIn_append, typesIn_append]; exact List.mem_append_right _ (List.mem_append_right _ (List.mem_singleton.2 rfl)), hname⟩)
      have h6 := fun n hn => nodeOk_mono h3 h4 (hall n hn)
      exact ⟨by rw [e]; exact again_ne h6 h5 (NCName.ne hname.1), by rw [e]; exact (resolves h6).again _ h5⟩
    · intro x hx
      cases hx
      refine ⟨NCName.ne hname.1, hv (nameOf as) (by simp [valued, C71.elements]), fun _ => ?_⟩
      have e : (elementOf (typeRef lang false t) false as).type = typeRef lang false t (nameOf as) := by
        simp [elementOf, hg.2.2.1.1, hg.2.2.1.2.1]
      show (elementOf (typeRef lang false t) false as).type = nameOf as ∨ _
      rw [e]
      unfold typeRef
      rw [localPart_plain hname.1.colon]
      cases hbt : getBuildInTypeByLang (nameOf as) lang with
      | some k => exact .inr (.inl ⟨_, hbt⟩)
      | none =>
        dsimp only
        cases hfd : (t.filterMap C07.declares).find? (fun d => d.1 = nameOf as) with
        | none => exact .inl rfl
        | some y =>
          refine .inr (.inr ?_)
          have ey : y.1 = nameOf as := of_decide_eq_true (List.find?_some (p := fun d : Str × Str => decide (d.1 = nameOf as)) hfd)
          obtain ⟨n, hn, hny⟩ := List.mem_filterMap.1 (List.mem_of_find?_eq_some hfd)
          cases n with
          | none => cases hny
          | some n =>
            refine List.mem_map.2 ⟨y, List.mem_filterMap.2 ⟨n, ?_, hny⟩, ey⟩
            exact List.mem_append_left _ (List.mem_append_left _ (List.mem_filterMap.2 ⟨_, hn, rfl⟩))
  | elemAnon as ras fs =>
    exact ⟨single rfl (by simp) _ (List.mem_singleton.2 rfl), new (nameOf as) _ (fun x hx => by cases hx; rfl) (by simp [valued, C71.elements])
      (hn _ (by simp [C71.elements])).1 (by simp [fresh, itemNamesOf]), trivial⟩
  | group as b =>
    have ha : anonymous b = [] := no_group b hg.2
    exact of_ok (single ha (by simp)) (by simp [Core.Decl.nodes, C07.declares])
  | attrGroup as b =>
    have ha : anonymous b = [] := no_attrs b hg.2
    refine of_ok (single ha (by simp)) fun n hn => ?_
    rcases List.mem_append.1 hn with hn | hn
    · obtain ⟨a, ha, rfl⟩ := List.mem_map.1 hn; rfl
    · rw [List.mem_singleton.1 hn]; rfl
  | «attribute» as =>
    exact ⟨single rfl (by simp) _ (List.mem_singleton.2 rfl), new (nameOf as) _ (fun x hx => by cases hx; rfl) (by simp [valued, C71.elements, C71.attributes])
      (hn _ (by simp [C71.attributes])).1 (by simp [fresh, itemNamesOf]), trivial⟩
  | attrAnon as ras fs =>
    exact ⟨single rfl (by simp) _ (List.mem_singleton.2 rfl), new (nameOf as) _ (fun x hx => by cases hx; rfl) (by simp [valued, C71.elements, C71.attributes])
      (hn _ (by simp [C71.attributes])).1 (by simp [fresh, itemNamesOf]), trivial⟩

end

/-- The tree of a schema in order. -/
theorem tree_order (ds : List Decl) : ∀ (t : Tree) (seen : List Decl), InOrder lang [] (nodes t) →
    Meets lang (typesIn (nodes t)) (itemsIn (nodes t)) (offers lang seen) → Placed (typeRef lang false) t ds → Before lang seen ds →
    (∀ d ∈ ds, ∀ s ∈ types d ++ elements d ++ attributes d ++ groups d ++ attrGroups d ++ anonymous (content d), NCName s ∧ Usable lang s) →
    (∀ d ∈ ds, ∀ s ∈ valued d, ∀ k, getBuildInTypeByLang k lang ≠ some s) → (∀ d ∈ ds, ∀ s ∈ fresh d, s ∉ typesIn (nodes t)) →
    (ds.Pairwise fun d d' => ∀ s ∈ fresh d', s ∉ typeNamesOf d) →
    InOrder lang [] (nodes (treeOf (typeRef lang false) t ds)) := by
  induction ds with
  | nil => intro t seen h _ _ _ _ _ _ _; exact h
  | cons d ds ih =>
    intro t seen h hm hr hb hn hv hf hp
    have e : nodes (t ++ (d.nodes (typeRef lang false t)).map some) = nodes t ++ d.nodes (typeRef lang false t) := by
      unfold Xgen.Decl.nodes; rw [List.filterMap_append, List.filterMap_map]; simp
    have hd := hn d (by simp)
    have hty : ∀ s ∈ types d ++ groups d ++ attrGroups d, s ∈ typesIn (d.nodes (typeRef lang false t)) := fun s hs => by
      obtain ⟨n, h1, h2, h3⟩ := (decl_names (typeRef lang false t) d).1 s hs
      exact List.mem_map.2 ⟨n, List.mem_filter.2 ⟨h1, h2⟩, h3⟩
    have hit : ∀ s ∈ elements d ++ attributes d, s ∈ itemsIn (d.nodes (typeRef lang false t)) := fun s hs => by
      obtain ⟨n, h1, h2, h3⟩ := (decl_names (typeRef lang false t) d).2 s hs
      exact List.mem_map.2 ⟨n, List.mem_filter.2 ⟨h1, by rw [h2]; rfl⟩, h3⟩
    refine ih _ (seen ++ [d]) ?_ ?_ hr.2 hb.2 (fun d hd => hn d (by simp [hd])) (fun d hd => hv d (by simp [hd])) ?_ (List.pairwise_cons.1 hp).2
    · rw [e, InOrder.append]
      exact ⟨h, decl_order h hm d hb.1 hr.1 hd (hv d (by simp)) (hf d (by simp))⟩
    · rw [e, typesIn_append, itemsIn_append]
      refine ⟨fun v hv => ?_, fun v hv => ?_, fun v hv => ?_, fun v hv => ?_, fun v hv => ?_⟩
      · rcases hv with hv | hv
        · exact .inl hv
        · rw [List.flatMap_append] at hv
          rcases List.mem_append.1 hv with hv | hv
          · exact (hm.type v (.inr hv)).imp id fun x => ⟨List.mem_append_left _ x.1, x.2⟩
          · simp only [List.flatMap_cons, List.flatMap_nil, List.append_nil] at hv
            exact .inr ⟨List.mem_append_right _ (hty _ (by simp [hv])), hd _ (by simp [hv])⟩
      · have hv : _ ∈ List.flatMap elements (seen ++ [d]) := hv
        rw [List.flatMap_append] at hv
        rcases List.mem_append.1 hv with hv | hv
        · exact ⟨List.mem_append_left _ (hm.element v hv).1, (hm.element v hv).2⟩
        · simp only [List.flatMap_cons, List.flatMap_nil, List.append_nil] at hv
          exact ⟨List.mem_append_right _ (hit _ (by simp [hv])), (hd _ (by simp [hv])).1⟩
      · have hv : _ ∈ List.flatMap attributes (seen ++ [d]) := hv
        rw [List.flatMap_append] at hv
        rcases List.mem_append.1 hv with hv | hv
        · exact ⟨List.mem_append_left _ (hm.attr v hv).1, (hm.attr v hv).2⟩
        · simp only [List.flatMap_cons, List.flatMap_nil, List.append_nil] at hv
          exact ⟨List.mem_append_right _ (hit _ (by simp [hv])), (hd _ (by simp [hv])).1⟩
      · have hv : _ ∈ List.flatMap groups (seen ++ [d]) := hv
        rw [List.flatMap_append] at hv
        rcases List.mem_append.1 hv with hv | hv
        · exact ⟨List.mem_append_left _ (hm.group v hv).1, (hm.group v hv).2⟩
        · simp only [List.flatMap_cons, List.flatMap_nil, List.append_nil] at hv
          exact ⟨List.mem_append_right _ (hty _ (by simp [hv])), hd _ (by simp [hv])⟩
      · have hv : _ ∈ List.flatMap attrGroups (seen ++ [d]) := hv
        rw [List.flatMap_append] at hv
        rcases List.mem_append.1 hv with hv | hv
        · exact ⟨List.mem_append_left _ (hm.attrGroup v hv).1, (hm.attrGroup v hv).2⟩
        · simp only [List.flatMap_cons, List.flatMap_nil, List.append_nil] at hv
          exact ⟨List.mem_append_right _ (hty _ (by simp [hv])), hd _ (by simp [hv])⟩
    · intro d' hd' s hs h'
      rw [e, typesIn_append] at h'
      rcases List.mem_append.1 h' with h' | h'
      · exact hf d' (by simp [hd']) s hs h'
      · obtain ⟨n, hn, rfl⟩ := List.mem_map.1 h'
        have := List.mem_filter.1 hn
        exact (List.pairwise_cons.1 hp).1 d' hd' _ hs (node_names _ d n this.1 this.2)

theorem ordered {ds : List Decl} (h : Ordered lang ds) (hr : Regular (typeRef lang false) [] ds) :
    InOrder lang [] (nodes (treeOf (typeRef lang false) [] ds)) :=
  tree_order ds [] [] trivial ⟨fun v hv => .inl (hv.resolve_right (by simp)), (fun v hv => by cases hv), (fun v hv => by cases hv),
    (fun v hv => by cases hv), (fun v hv => by cases hv)⟩ hr.placed h.refs h.names h.targets (fun _ _ _ _ h => by cases h) h.once

/-- Documentation does not matter. -/
theorem order_bare (ns : List (Node Element)) : ∀ pre, InOrder lang (pre.map (C57.noDocNode C31.noDocE)) (ns.map (C57.noDocNode C31.noDocE)) ↔
    InOrder lang pre ns := by
  have h1 : ∀ pre, typesIn (pre.map (C57.noDocNode C31.noDocE)) = typesIn pre := fun pre => by
    simp [typesIn, List.filter_map, Function.comp_def, typelike_bare, C59.name_bare]
  have h2 : ∀ pre, itemsIn (pre.map (C57.noDocNode C31.noDocE)) = itemsIn pre := fun pre => by
    simp [itemsIn, List.filter_map, Function.comp_def, typelike_bare, C59.name_bare]
  have h3 : ∀ n : Node Element, C07.declares (some (C57.noDocNode C31.noDocE n)) = C07.declares (some n) := fun n => by cases n <;> rfl
  have h4 : ∀ pre, declaredIn (pre.map (C57.noDocNode C31.noDocE)) = declaredIn pre := fun pre => by
    simp [declaredIn, List.filterMap_map, Function.comp_def, h3]
  induction ns with
  | nil => intro pre; exact Iff.rfl
  | cons n ns ih =>
    intro pre
    rw [List.map_cons, InOrder, InOrder, h1, h2, nodeOk_bare, New, New, h1, h3, h4, ← ih (pre ++ [n])]
    simp

theorem order_alike {t t' : Tree} (h : C57.bare t = C57.bare t') (hl : InOrder lang [] (nodes t')) : InOrder lang [] (nodes t) := by
  rw [← order_bare _ [], ← C59.nodes_bare] at hl ⊢
  rw [h]; exact hl

end

/-! ## The file -/

/-- What comes before a component that is declared has been declared, or something of the same name. -/
theorem firsts_split {A B : List (Node Element)} {n : Node Element} : ∀ {ns : List (Node Element)}, C56.firsts (fun _ => false) ns = A ++ n :: B →
    ∃ p q, ns = p ++ n :: q ∧ ∀ m ∈ p, ∃ m' ∈ A, nodeName m' = nodeName m := by
  suffices H : ∀ (ns : List (Node Element)) (keep : Node Element → Bool) (gone : List Str) A B n,
      (∀ m m' : Node Element, nodeName m = nodeName m' → keep m = keep m') → (∀ m, keep m = false → nodeName m ∈ gone) →
      (C56.firsts (fun _ => false) ns).filter keep = A ++ n :: B →
      ∃ p q, ns = p ++ n :: q ∧ ∀ m ∈ p, nodeName m ∈ gone ∨ ∃ m' ∈ A, nodeName m' = nodeName m by
    intro ns h
    obtain ⟨p, q, h1, h2⟩ := H ns (fun _ => true) [] A B n (fun _ _ _ => rfl) (fun _ h => by cases h) (by rw [List.filter_eq_self.2 fun _ _ => rfl]; exact h)
    exact ⟨p, q, h1, fun m hm => (h2 m hm).resolve_left (by simp)⟩
  intro ns
  induction ns with
  | nil => intro keep gone A B n _ _ h; simp [C56.firsts] at h
  | cons a ns ih =>
    intro keep gone A B n hk hg h
    rw [C56.firsts, if_neg (by simp), List.filter_cons, List.filter_filter] at h
    simp only [Bool.false_or] at h
    have hk' : ∀ m m' : Node Element, nodeName m = nodeName m' → (keep m && decide (nodeName m ≠ nodeName a)) = (keep m' && decide (nodeName m' ≠ nodeName a)) := by
      intro m m' e; rw [hk m m' e, e]
    have hg' : ∀ m : Node Element, (keep m && decide (nodeName m ≠ nodeName a)) = false → nodeName m ∈ nodeName a :: gone := by
      intro m e
      by_cases e' : nodeName m = nodeName a
      · rw [e']; exact List.mem_cons_self
      · rw [decide_eq_true e', Bool.and_true] at e
        exact List.mem_cons_of_mem _ (hg m e)
    by_cases ka : keep a = true
    · rw [if_pos ka] at h
      cases A with
      | nil =>
        injection h with h1 h2
        exact ⟨[], ns, by rw [h1]; rfl, fun m hm => by cases hm⟩
      | cons a' A =>
        rw [List.cons_append] at h
        injection h with h1 h2
        subst h1
        obtain ⟨p, q, e, hp⟩ := ih _ (nodeName a :: gone) A B n hk' hg' h2
        refine ⟨a :: p, q, by rw [e]; rfl, fun m hm => ?_⟩
        rcases List.mem_cons.1 hm with rfl | hm
        · exact .inr ⟨m, List.mem_cons_self, rfl⟩
        · rcases hp m hm with h' | ⟨m', h', e'⟩
          · rcases List.mem_cons.1 h' with h' | h'
            · exact .inr ⟨a, List.mem_cons_self, h'.symm⟩
            · exact .inl h'
          · exact .inr ⟨m', List.mem_cons_of_mem _ h', e'⟩
    · rw [if_neg ka] at h
      have ka' : keep a = false := by simpa using ka
      obtain ⟨p, q, e, hp⟩ := ih _ (nodeName a :: gone) A B n hk' hg' h
      refine ⟨a :: p, q, by rw [e]; rfl, fun m hm => ?_⟩
      rcases List.mem_cons.1 hm with rfl | hm
      · exact .inl (hg _ ka')
      · rcases hp m hm with h' | h'
        · rcases List.mem_cons.1 h' with h' | h'
          · exact .inl (by rw [h']; exact hg _ ka')
          · exact .inl h'
        · exact .inr h'

namespace C
variable [Uni]

/-- Every type that a declaration mentions is predefined or declared before it. -/
def Sorted (text : Str) : Prop := ∀ pre d post, C58.C.declsOf text = pre ++ d :: post →
  ∀ t ∈ C71.C.mentions d, Known C71.C.predefined C71.C.wraps (pre.flatMap (·.2.2)) t

theorem declared {counted : Node Element → Bool} {X Y : List (Node Element × Str)} : ∀ {ns : List (Node Element)} {used : List Str},
    ns.zip (C56.finals C58.C.base counted used ns) = X ++ Y → ∀ x ∈ X, C58.C.base x.1 ∉ used → ∃ y ∈ X, C58.C.nameOf y.1 y.2 = C58.C.base x.1 := by
  induction X with
  | nil => intro ns used _ x hx; cases hx
  | cons z X ih =>
    intro ns used h x hx hu
    cases ns with
    | nil => simp [C56.finals] at h
    | cons a ns =>
      have hz : ∃ fn used', z = (a, fn) ∧ (C58.C.base a ∉ used → fn = C58.C.base a) ∧ (∀ s, s ∈ used' → s ∈ used ∨ s = C58.C.base a) ∧
          ns.zip (C56.finals C58.C.base counted used' ns) = X ++ Y := by
        rw [C56.finals] at h
        split at h
        · rw [List.zip_cons_cons, List.cons_append] at h
          injection h with h1 h2
          exact ⟨_, _, h1.symm, (fun hu => by rw [List.count_eq_zero_of_not_mem hu]; rfl), (fun s hs => (List.mem_cons.1 hs).symm), h2⟩
        · rw [List.zip_cons_cons, List.cons_append] at h
          injection h with h1 h2
          exact ⟨_, _, h1.symm, (fun _ => rfl), (fun s hs => .inl hs), h2⟩
      obtain ⟨fn, used', rfl, h1, h2, h3⟩ := hz
      by_cases e : C58.C.base a = C58.C.base x.1
      · refine ⟨(a, fn), List.mem_cons_self, ?_⟩
        rw [← e] at hu ⊢
        rw [C58.C.nameOf, h1 hu, ite_self]
      · rcases List.mem_cons.1 hx with rfl | hx
        · exact absurd rfl e
        · obtain ⟨y, hy, ey⟩ := ih h3 x hx fun h => (h2 _ h).elim hu fun h => e h.symm
          exact ⟨y, List.mem_cons_of_mem _ hy, ey⟩

variable [UniLaws]

theorem finals_length {base : Node Element → Str} {counted : Node Element → Bool} (ns : List (Node Element)) : ∀ used,
    (C56.finals base counted used ns).length = ns.length := by
  induction ns with
  | nil => intro used; rfl
  | cons a ns ih => intro used; rw [C56.finals]; split <;> simp [ih]

/-- The file of a tree in order. -/
theorem file {t : Tree} (hg : Legible t) (hl : InOrder c!"C" [] (nodes t)) : Sorted (cSource t) := by
  obtain ⟨order, ho, hr⟩ := C58.C.file t hg
  intro pre d post e
  rw [hr] at e
  obtain ⟨X, Y, hXY, rfl, hY⟩ := List.map_eq_append_iff.1 e
  obtain ⟨x, Y', rfl, rfl, -⟩ := List.map_eq_cons_iff.1 hY
  have hf : C56.firsts (fun _ => false) (nodes t) = X.map (·.1) ++ x.1 :: Y'.map (·.1) := by
    rw [← List.map_cons, ← List.map_append, ← hXY, C58.declarations, List.map_fst_zip]
    rw [finals_length]; exact Nat.le_refl _
  obtain ⟨p, q, hpq, hp⟩ := firsts_split hf
  have hn : x.1 ∈ nodes t := by rw [hpq]; simp
  refine C71.C.one (InOrder.means hpq hl) hg (fun s hs => ?_) ho hn ?_ x.2
  · obtain ⟨m, hm, rfl⟩ := List.mem_map.1 hs
    have hm := (List.mem_filter.1 hm).1
    refine ⟨?_, hg.name (by rw [hpq]; simp [hm])⟩
    obtain ⟨m', hm', e'⟩ := hp m hm
    obtain ⟨y, hy, rfl⟩ := List.mem_map.1 hm'
    obtain ⟨z, hz, ez⟩ := declared hXY y hy (by simp)
    refine List.mem_flatMap.2 ⟨_, List.mem_map_of_mem hz, ?_⟩
    rw [← e']
    exact List.mem_singleton.2 ez.symm
  · rw [hpq] at hl
    exact (InOrder.append.1 hl).2.1

end C

/-! ## Documents -/

section
variable [Uni] [UniLaws] {W : World} {cfg : Cfg} {sh : Shared} {ds : List Decl} {toks : List Token}

/-- C72.  (Missing: types called `enum`, see `C71.Usable`.) -/
theorem c_partial (h : C59.Document W cfg sh ds toks) (hl : cfg.lang = c!"C") (hb : Ordered c!"C" ds) : ∃ t sh' text, Parse W cfg sh = .ok t sh' ∧
    sh'.outputs = sh.outputs ++ [(C24.documentedPath cfg c!".h", text)] ∧ C.Sorted text := by
  obtain ⟨t, sh', h1, h2, h3, h4⟩ := h.tree
  obtain ⟨sh'', h5, h6⟩ := h.write (t := t) (sh' := sh') (ext := c!".h") (text := cSource t) (by
    rw [generate, hl, C24.title_lang (by decide)]; rfl)
  refine ⟨t, sh'', _, h4.trans h5, by rw [h6, h1], C.file h3 ?_⟩
  have hr := h.regular
  rw [hl] at h2 hr
  exact order_alike h2 (ordered hb hr)

end

/-! ## Example -/

open C70 (a base derived element attrib uses extension union list)

instance decBefore (lang : Str) : (seen ds : List Decl) → Decidable (Before lang seen ds)
  | _, [] => .isTrue trivial
  | seen, d :: ds => by have := decBefore lang (seen ++ [d]) ds; unfold Before; infer_instance

/-- A schema in order, with everything. -/
def schema : List Decl := [base, derived, element, attrib, extension, uses, union, list, nestedAnon, unit, pair, useGroup, attrs, useAttrs, amount]

theorem in_order {ds : List Decl} (h : Before c!"C" [] ds ∧ (∀ d ∈ ds,
      ∀ s ∈ types d ++ elements d ++ attributes d ++ groups d ++ attrGroups d ++ anonymous (content d), NCName s ∧ Usable c!"C" s) ∧
    (∀ d ∈ ds, ∀ s ∈ valued d, s ∉ cBuildInType) ∧ ds.Pairwise fun d d' => ∀ s ∈ fresh d', s ∉ typeNamesOf d) : Ordered c!"C" ds :=
  ⟨h.1, h.2.1, fun d hd s hs k e => h.2.2.1 d hd s hs (C71.C.table k s e).1, h.2.2.2⟩

theorem example_order : Ordered c!"C" schema := in_order (by decide +kernel)

theorem document : @C59.Document asciiUni (Ex.world [("a.xsd", schemaTokens C40.root schema)]) (C59.doc c!"C") {} schema (schemaTokens C40.root schema) :=
  @C59.Document.mk asciiUni _ _ _ _ _ rfl (by decide +kernel) ⟨C40.root, by decide +kernel⟩ (by decide +kernel)
      (.inr ⟨rfl, rfl, by decide, rfl⟩) (by decide +kernel) rfl rfl fun _ => rfl

/-- The declarations with the types they mention. -/
example : (C58.C.declsOf (file c!"C" schema)).map (fun d => (d.2.2, C71.C.mentions d)) =
    [([c!"B"], [c!"char"]), ([c!"A"], [c!"char"]), ([c!"E"], [c!"char"]), ([c!"At"], [c!"char"]), ([c!"S"], [c!"char"]),
     ([c!"T"], [c!"char", c!"char", c!"char", c!"char", c!"S"]), ([c!"U"], [c!"char", c!"char"]), ([c!"L"], [c!"char"]), ([c!"Line"], [c!"T"]),
     ([c!"Order"], [c!"int", c!"Line"]), ([c!"Unit"], [c!"char"]), ([c!"G"], [c!"Order", c!"T"]), ([c!"V"], [c!"G"]),
     ([c!"AG"], [c!"char", c!"char"]), ([c!"W"], [c!"AG"]), ([c!"Amount"], [c!"char"])] := by decide +kernel

/-! ## Schemas out of order -/

/-- A type used before its declaration. -/
def Early : List (Str × List C48.C.Member × List Str) → List Str → Prop
  | [], _ => False
  | d :: ds, seen => (∃ t ∈ C71.C.mentions d, t ∉ C71.C.predefined ∧ t ∉ seen ∧ ∀ w ∈ C71.C.wraps, ¬ (w.1 <+: t ∧ w.2 <:+ t)) ∨ Early ds (seen ++ d.2.2)

instance decEarly : (ds : List (Str × List C48.C.Member × List Str)) → (seen : List Str) → Decidable (Early ds seen)
  | [], _ => .isFalse id
  | d :: ds, seen => by have := decEarly ds (seen ++ d.2.2); unfold Early; infer_instance

theorem early {text : Str} (h : Early (C58.C.declsOf text) []) : ¬ C.Sorted text := by
  intro hs
  have : ∀ (ds pre : List (Str × List C48.C.Member × List Str)), C58.C.declsOf text = pre ++ ds → ¬ Early ds (pre.flatMap (·.2.2)) := by
    intro ds
    induction ds with
    | nil => intro pre _ h; exact h
    | cons d ds ih =>
      intro pre e h
      rcases h with ⟨t, ht, h1, h2, h3⟩ | h
      · exact not_known h1 h2 h3 (hs pre d ds e t ht)
      · exact ih (pre ++ [d]) (by rw [e]; simp) (by simpa using h)
  exact this _ [] rfl h

/-- Nothing is done about types in the wrong order. -/
theorem forward : Bound c!"C" [user "thing", thing "thing"] ∧
    (C58.C.declsOf (file c!"C" [user "thing", thing "thing"])).map (fun d => (d.2.2, C71.C.mentions d)) = [([c!"T"], [c!"Thing"]), ([c!"Thing"], [c!"int"])] ∧
    ¬ C.Sorted (file c!"C" [user "thing", thing "thing"]) :=
  ⟨by decide +kernel, by decide +kernel, early (by decide +kernel)⟩

/-- A type with a member of that type. -/
theorem recursive : Bound c!"C" [user "T"] ∧ (C58.C.declsOf (file c!"C" [user "T"])).map (fun d => (d.2.2, C71.C.mentions d)) = [([c!"T"], [c!"T"])] ∧
    ¬ C.Sorted (file c!"C" [user "T"]) :=
  ⟨by decide +kernel, by decide +kernel, early (by decide +kernel)⟩

/-- An element with the name of an earlier type: the type is taken for that of the element, even where it was used before. -/
theorem shadowed : let ds := [thing "thing", user "thing", thing "other", .element (a [("name", "thing"), ("type", "other")])]
    Bound c!"C" ds ∧ Before c!"C" [] ds ∧
    (C58.C.declsOf (file c!"C" ds)).map (fun d => (d.2.2, C71.C.mentions d)) = [([c!"Thing"], [c!"int"]), ([c!"T"], [c!"Other"]), ([c!"Other"], [c!"int"])] ∧
    ¬ C.Sorted (file c!"C" ds) :=
  ⟨by decide +kernel, by decide +kernel, by decide +kernel, early (by decide +kernel)⟩

end Xgen.C72

import Verif.Props.C77

/-! # C86: what is written from the generated Go types is valid again

A program that reads a document into the generated Go types, and writes it again, should write a document that is valid against the same
schema.  `encoding/xml` writes the elements of a struct in the order of its fields, those of embedded structs where they are
embedded, and writes zero values for fields of built-in types that were missing.  The fields are in the order of the declarations;
but the struct of the type that is extended is embedded at the end, where XSD demands that its elements come first. -/

namespace Xgen.C86
open Core GoXml C40 Decl Xsd
open C77 (builtin goOf scalar Suitable Named Fine said must needed levels Document)

/-! ## Which schemas -/

/-- Only elements, each of them once. -/
def flat : Body → Bool
  | .nil => true
  | .elem as k => needed as && !repeated as && flat k
  | .anon as _ _ _ k => needed as && !repeated as && flat k
  | .elemAnon as _ _ k => needed as && !repeated as && flat k
  | .seq _ _ _ => false
  | .all _ _ _ => false
  | .choice _ _ _ => false
  | .attribute _ k => flat k
  | .attrAnon _ _ _ k => flat k

/-- Contents in which elements can be put in the order of the declarations, and elements with certain names can be added: no
repeated sequences, repeated choices only between single elements, and what may be added is allowed and not inside a choice or
something that is optional. -/
def Steady (Z : Str → Prop) : Body → Prop
  | .nil => True
  | .elem as k => (Z (nameOf as) → Allowed as 1) ∧ Steady Z k
  | .anon as _ _ _ k => (Z (nameOf as) → Allowed as 1) ∧ Steady Z k
  | .elemAnon as _ _ k => (Z (nameOf as) → Allowed as 1) ∧ Steady Z k
  | .seq as b k => repeated as = false ∧ (needed as = true ∨ ∀ x ∈ parts b, ¬ Z x.1) ∧ Steady Z b ∧ Steady Z k
  | .all as b k => repeated as = false ∧ (needed as = true ∨ ∀ x ∈ parts b, ¬ Z x.1) ∧ Steady Z b ∧ Steady Z k
  | .choice as b k => (∀ x ∈ parts b, ¬ Z x.1) ∧ (repeated as = false ∧ Steady Z b ∨ flat b = true) ∧ Steady Z k
  | .attribute _ k => Steady Z k
  | .attrAnon _ _ _ k => Steady Z k

/-- The elements of built-in types for which Go writes something if they are missing: they may be missing, and are not slices. -/
def Spare (ds : List Top) (q : Bool) (c : Complex) (n : Str) : Prop :=
  said n q c.body = false ∧ must n c.body = false ∧ ∃ x ∈ parts c.body, x.1 = n ∧ ∃ k s, Has builtin ds x.2 (.text k) ∧ goOf k = some s ∧ s ∈ scalarTypes

/-- What is demanded of a complex type with those it extends. -/
structure Regular (S : Scalars) (values : Xsd.Ty → Str → Prop) (ds : List Top) (p : Bool) (l : List Complex) : Prop where
  /-- only one of them has elements -/
  single : l.Pairwise fun c d => parts c.body = [] ∨ parts d.body = []
  /-- the elements have different names -/
  names : ∀ c ∈ l, ((parts c.body).map (·.1)).Nodup
  /-- the order of the declarations is valid -/
  steady : ∀ qc ∈ levels p l, Steady (Spare ds qc.1 qc.2) qc.2.body
  /-- zero values of elements that may be missing are valid -/
  zeros : ∀ qc ∈ levels p l, ∀ x ∈ parts qc.2.body, Spare ds qc.1 qc.2 x.1 → ∀ k s, Has builtin ds x.2 (.text k) → goOf k = some s →
    s ∈ scalarTypes → values (.text k) (S.zero s)
  /-- zero values of optional attributes are valid, or are not written -/
  attrs : ∀ c ∈ l, ∀ a ∈ attribs c.body, a.required = false → ∀ k s, Denotes builtin ds a.type (.text k) → goOf k = some s →
    s ∈ scalarTypes → S.empty s (S.zero s) = true ∨ values (.text k) (S.zero s)

/-! ## Words in the order of the declarations -/

/-- Names in a given order, each of them as often as said. -/
def spread (f : Str → Nat) (N : List Str) : List Str := N.flatMap fun n => List.replicate (f n) n

/-- The numbers are those of a word, apart from names that are added. -/
def Counts (Z : Str → Prop) (N : List Str) (w : List Str) (f : Str → Nat) : Prop :=
  ∀ n ∈ N, f n = w.count n ∨ (Z n ∧ w.count n = 0 ∧ f n = 1)

theorem spread_append (f : Str → Nat) (N M : List Str) : spread f (N ++ M) = spread f N ++ spread f M := List.flatMap_append

theorem spread_nil {f : Str → Nat} {N : List Str} (h : ∀ n ∈ N, f n = 0) : spread f N = [] := by
  refine List.flatMap_eq_nil_iff.2 fun n hn => ?_
  rw [h n hn]; rfl

theorem count_spread {f : Str → Nat} {N : List Str} (hN : N.Nodup) (m : Str) : (spread f N).count m = if m ∈ N then f m else 0 := by
  induction N with
  | nil => rfl
  | cons n N ih =>
    rw [List.nodup_cons] at hN
    have e : spread f (n :: N) = List.replicate (f n) n ++ spread f N := List.flatMap_cons
    rw [e, List.count_append, ih hN.2, List.count_replicate]
    by_cases h : m = n
    · subst h
      simp [hN.1]
    · simp [h, Ne.symm h]

/-- Names that occur in a word at most. -/
theorem spread_perm {f : Str → Nat} {N w : List Str} (hN : N.Nodup) (hw : ∀ x ∈ w, x ∈ N) (hf : ∀ n ∈ N, f n = w.count n) : (spread f N).Perm w := by
  rw [List.perm_iff_count]
  intro m
  rw [count_spread hN]
  split
  · rename_i h; exact hf m h
  · rename_i h; exact (List.count_eq_zero.2 fun hm => h (hw m hm)).symm

/-- Two parts, one after the other or one of the two. -/
theorem joined_regroup {Z : Str → Prop} {ch : Bool} {P Q : List Str → Prop} {N M : List Str} (hN : ∀ u, P u → ∀ x ∈ u, x ∈ N)
    (hM : ∀ u, Q u → ∀ x ∈ u, x ∈ M) (hd : ∀ x ∈ N, x ∉ M) (hZ : ch = true → ∀ n ∈ N ++ M, ¬ Z n) (hP : ∀ u f, P u → Counts Z N u f → P (spread f N))
    (hQ : ∀ u f, Q u → Counts Z M u f → Q (spread f M)) {w : List Str} {f : Str → Nat} (h : joined ch P Q w) (hf : Counts Z (N ++ M) w f) :
    joined ch P Q (spread f (N ++ M)) := by
  rw [spread_append]
  cases ch with
  | false =>
    obtain ⟨u, v, rfl, hu, hv⟩ := h
    refine ⟨_, _, rfl, hP u f hu fun n hn => ?_, hQ v f hv fun n hn => ?_⟩
    · have : v.count n = 0 := List.count_eq_zero.2 fun hm => hd n hn (hM v hv n hm)
      have := hf n (List.mem_append_left _ hn)
      rw [List.count_append] at this
      simpa [*] using this
    · have : u.count n = 0 := List.count_eq_zero.2 fun hm => hd n (hN u hu n hm) hn
      have := hf n (List.mem_append_right _ hn)
      rw [List.count_append] at this
      simpa [*] using this
  | true =>
    have hz : ∀ n ∈ N ++ M, f n = w.count n := fun n hn => (hf n hn).elim id fun h => absurd h.1 (hZ rfl n hn)
    rcases h with h | h
    · have : spread f M = [] := spread_nil fun n hn => by
        rw [hz n (List.mem_append_right _ hn)]
        exact List.count_eq_zero.2 fun hm => hd n (hN w h n hm) hn
      rw [this, List.append_nil]
      exact .inl (hP w f h fun n hn => hf n (List.mem_append_left _ hn))
    · have : spread f N = [] := spread_nil fun n hn => by
        rw [hz n (List.mem_append_left _ hn)]
        exact List.count_eq_zero.2 fun hm => hd n hn (hM w h n hm)
      rw [this, List.nil_append]
      exact .inr (hQ w f h fun n hn => hf n (List.mem_append_right _ hn))

/-- The elements of one declaration. -/
theorem elem_regroup {Z : Str → Prop} {as : List Attr} (hs : Z (nameOf as) → Allowed as 1) {u : List Str} {f : Str → Nat}
    (h : (∀ x ∈ u, x = nameOf as) ∧ Allowed as u.length) (hf : Counts Z [nameOf as] u f) :
    (∀ x ∈ spread f [nameOf as], x = nameOf as) ∧ Allowed as (spread f [nameOf as]).length := by
  have e : spread f [nameOf as] = List.replicate (f (nameOf as)) (nameOf as) := by simp [spread]
  rw [e, List.length_replicate]
  refine ⟨fun x hx => (List.mem_replicate.1 hx).2, ?_⟩
  rcases hf (nameOf as) (by simp) with h1 | ⟨h1, -, h2⟩
  · have : u.count (nameOf as) = u.length := List.count_eq_length.2 fun x hx => (h.1 x hx).symm
    rw [h1, this]; exact h.2
  · rw [h2]; exact hs h1

/-- Something that is not repeated. -/
theorem part_regroup {Z : Str → Prop} {as : List Attr} {N : List Str} {L : List Str → Prop} (hr : repeated as = false)
    (hn : needed as = true ∨ ∀ n ∈ N, ¬ Z n) (hL : ∀ x f, L x → Counts Z N x f → L (spread f N)) {u : List Str} {f : Str → Nat}
    (h : ∃ us : List (List Str), u = us.flatten ∧ Allowed as us.length ∧ ∀ x ∈ us, L x) (hf : Counts Z N u f) :
    ∃ us : List (List Str), spread f N = us.flatten ∧ Allowed as us.length ∧ ∀ x ∈ us, L x := by
  obtain ⟨us, rfl, ha, hx⟩ := h
  have hl := C77.allowed_once ha hr
  match us, hl with
  | [], _ =>
    have hz : ∀ n ∈ N, ¬ Z n := hn.resolve_left fun h => by
      have := C77.allowed_needed ha h
      simp at this
    refine ⟨[], spread_nil fun n hm => ?_, ha, fun _ h => by cases h⟩
    rcases hf n hm with h | h
    · simpa using h
    · exact absurd h.1 (hz n hm)
  | [x], _ =>
    refine ⟨[spread f N], by simp, ha, fun y hy => ?_⟩
    rw [List.mem_singleton.1 hy]
    exact hL x f (hx x (by simp)) (by simpa using hf)
  | _ :: _ :: _, h => simp at h

theorem flat_word {b : Body} (h : flat b = true) {w : List Str} (hw : Lang true b w) : ∃ n, w = [n] ∧ n ∈ (parts b).map (·.1) := by
  have one : ∀ {as : List Attr}, needed as = true → repeated as = false → (∀ x ∈ w, x = nameOf as) ∧ Allowed as w.length → w = [nameOf as] := by
    intro as h1 h2 h3
    have h4 := C77.allowed_needed h3.2 h1
    have h5 := C77.allowed_once h3.2 h2
    obtain ⟨x, rfl⟩ := List.length_eq_one_iff.1 (Nat.le_antisymm h5 h4)
    rw [h3.1 x (by simp)]
  induction b with
  | nil => exact absurd hw.1 (by decide)
  | elem as k ih =>
    simp only [flat, Bool.and_eq_true, Bool.not_eq_true'] at h
    rcases hw with hw | hw
    · exact ⟨_, one h.1.1 h.1.2 hw, by simp [parts]⟩
    · obtain ⟨n, h1, h2⟩ := ih h.2 hw; exact ⟨n, h1, by rw [parts, List.map_cons]; exact List.mem_cons_of_mem _ h2⟩
  | anon as cas ext b k _ ih =>
    simp only [flat, Bool.and_eq_true, Bool.not_eq_true'] at h
    rcases hw with hw | hw
    · exact ⟨_, one h.1.1 h.1.2 hw, by simp [parts]⟩
    · obtain ⟨n, h1, h2⟩ := ih h.2 hw; exact ⟨n, h1, by rw [parts, List.map_cons]; exact List.mem_cons_of_mem _ h2⟩
  | elemAnon as ras fs k ih =>
    simp only [flat, Bool.and_eq_true, Bool.not_eq_true'] at h
    rcases hw with hw | hw
    · exact ⟨_, one h.1.1 h.1.2 hw, by simp [parts]⟩
    · obtain ⟨n, h1, h2⟩ := ih h.2 hw; exact ⟨n, h1, by rw [parts, List.map_cons]; exact List.mem_cons_of_mem _ h2⟩
  | seq => cases h
  | all => cases h
  | choice => cases h
  | «attribute» as k ih => exact ih h hw
  | attrAnon as ras fs k ih => exact ih h hw

/-- A repeated choice between single elements. -/
theorem flat_regroup {as : List Attr} {b : Body} (h : flat b = true) (hN : ((parts b).map (·.1)).Nodup) {u : List Str} {f : Str → Nat}
    (hu : ∃ us : List (List Str), u = us.flatten ∧ Allowed as us.length ∧ ∀ x ∈ us, Lang true b x) (hf : ∀ n ∈ (parts b).map (·.1), f n = u.count n) :
    ∃ us : List (List Str), spread f ((parts b).map (·.1)) = us.flatten ∧ Allowed as us.length ∧ ∀ x ∈ us, Lang true b x := by
  obtain ⟨us, rfl, ha, hx⟩ := hu
  have hw : ∀ x ∈ us.flatten, x ∈ (parts b).map (·.1) ∧ Lang true b [x] := by
    intro x hx'
    obtain ⟨w, hw, hxw⟩ := List.mem_flatten.1 hx'
    obtain ⟨n, rfl, hn⟩ := flat_word h (hx w hw)
    rw [List.mem_singleton.1 hxw]
    exact ⟨hn, hx _ hw⟩
  have hp := spread_perm hN (fun x hx' => (hw x hx').1) hf
  have hlen : us.flatten.length = us.length := by
    clear hf ha hw hp
    induction us with
    | nil => rfl
    | cons x us ih =>
      obtain ⟨n, rfl, -⟩ := flat_word h (hx x (by simp))
      rw [List.flatten_cons, List.length_append, ih fun y hy => hx y (by simp [hy]), List.length_cons, List.length_cons, List.length_nil]
      omega
  refine ⟨(spread f ((parts b).map (·.1))).map fun n => [n], ?_, ?_, fun x hx' => ?_⟩
  · generalize spread f ((parts b).map (·.1)) = w
    clear hp
    induction w with
    | nil => rfl
    | cons a w ih => rw [List.map_cons, List.flatten_cons, ← ih]; rfl
  · rw [List.length_map, hp.length_eq, hlen]; exact ha
  · obtain ⟨n, hn, rfl⟩ := List.mem_map.1 hx'
    exact (hw n (hp.mem_iff.1 hn)).2

theorem lang_names {b : Body} {ch : Bool} {w : List Str} (h : Lang ch b w) : ∀ x ∈ w, x ∈ (parts b).map (·.1) := fun x hx => by
  obtain ⟨p, hp, e⟩ := C77.lang_mem b ch w h x hx
  exact List.mem_map.2 ⟨p, hp, e⟩

theorem part_names {as : List Attr} {N : List Str} {L : List Str → Prop} (hL : ∀ w, L w → ∀ x ∈ w, x ∈ N) (u : List Str)
    (h : ∃ us : List (List Str), u = us.flatten ∧ Allowed as us.length ∧ ∀ x ∈ us, L x) : ∀ x ∈ u, x ∈ N := by
  obtain ⟨us, rfl, -, h⟩ := h
  intro x hx
  obtain ⟨w, hw, hxw⟩ := List.mem_flatten.1 hx
  exact hL w (h w hw) x hxw

/-- Valid contents are still valid in the order of the declarations. -/
theorem regroup {Z : Str → Prop} (b : Body) : ∀ (ch : Bool) (w : List Str) (f : Str → Nat), ((parts b).map (·.1)).Nodup → Steady Z b →
    (ch = true → ∀ x ∈ parts b, ¬ Z x.1) → Lang ch b w → Counts Z ((parts b).map (·.1)) w f → Lang ch b (spread f ((parts b).map (·.1))) := by
  have elemCase : ∀ (as : List Attr) (x : Str × Kind) (k : Body) (ch : Bool) (w : List Str) (f : Str → Nat), x.1 = nameOf as →
      (∀ (w : List Str) (f : Str → Nat), ((parts k).map (·.1)).Nodup → Steady Z k → (ch = true → ∀ x ∈ parts k, ¬ Z x.1) → Lang ch k w →
        Counts Z ((parts k).map (·.1)) w f → Lang ch k (spread f ((parts k).map (·.1)))) →
      ((x :: parts k).map (·.1)).Nodup → ((Z (nameOf as) → Allowed as 1) ∧ Steady Z k) → (ch = true → ∀ y ∈ x :: parts k, ¬ Z y.1) →
      joined ch (fun u => (∀ x ∈ u, x = nameOf as) ∧ Allowed as u.length) (Lang ch k) w → Counts Z ((x :: parts k).map (·.1)) w f →
      joined ch (fun u => (∀ x ∈ u, x = nameOf as) ∧ Allowed as u.length) (Lang ch k) (spread f ((x :: parts k).map (·.1))) := by
    intro as x k ch w f hx ih hN hS hZ h hf
    rw [List.map_cons, hx] at hN hf ⊢
    rw [List.nodup_cons] at hN
    refine joined_regroup (P := fun u => (∀ x ∈ u, x = nameOf as) ∧ Allowed as u.length) (N := [nameOf as]) (M := (parts k).map Prod.fst) (f := f) (fun u hu y hy => by rw [hu.1 y hy]; simp) (fun u hu => lang_names hu)
      (fun y hy => by rw [List.mem_singleton.1 hy]; exact hN.1) (fun hc n hn => ?_) (fun u f hu hf => elem_regroup hS.1 hu hf)
      (fun u f hu hf => ih u f hN.2 hS.2 (fun hc y hy => hZ hc y (by simp [hy])) hu hf) h hf
    rcases List.mem_append.1 hn with hn | hn
    · rw [List.mem_singleton.1 hn, ← hx]; exact hZ hc x (by simp)
    · obtain ⟨y, hy, rfl⟩ := List.mem_map.1 hn
      exact hZ hc y (by simp [hy])
  have partCase : ∀ (as : List Attr) (b k : Body) (L : List Str → Prop) (ch : Bool) (w : List Str) (f : Str → Nat),
      (∀ w, L w → ∀ x ∈ w, x ∈ (parts b).map (·.1)) →
      (∀ u f, (∃ us : List (List Str), u = us.flatten ∧ Allowed as us.length ∧ ∀ x ∈ us, L x) → Counts Z ((parts b).map (·.1)) u f →
        ∃ us : List (List Str), spread f ((parts b).map (·.1)) = us.flatten ∧ Allowed as us.length ∧ ∀ x ∈ us, L x) →
      (∀ (w : List Str) (f : Str → Nat), ((parts k).map (·.1)).Nodup → Steady Z k → (ch = true → ∀ x ∈ parts k, ¬ Z x.1) → Lang ch k w →
        Counts Z ((parts k).map (·.1)) w f → Lang ch k (spread f ((parts k).map (·.1)))) →
      ((parts b ++ parts k).map (·.1)).Nodup → Steady Z k → (ch = true → ∀ y ∈ parts b ++ parts k, ¬ Z y.1) →
      joined ch (fun u => ∃ us : List (List Str), u = us.flatten ∧ Allowed as us.length ∧ ∀ x ∈ us, L x) (Lang ch k) w →
      Counts Z ((parts b ++ parts k).map (·.1)) w f →
      joined ch (fun u => ∃ us : List (List Str), u = us.flatten ∧ Allowed as us.length ∧ ∀ x ∈ us, L x) (Lang ch k)
        (spread f ((parts b ++ parts k).map (·.1))) := by
    intro as b k L ch w f hL hP ih hN hS hZ h hf
    rw [List.map_append] at hN hf ⊢
    rw [List.nodup_append] at hN
    refine joined_regroup (fun u hu => part_names hL u hu) (fun u hu => lang_names hu) (fun y hy hm => hN.2.2 y hy y hm rfl) (fun hc n hn => ?_) hP
      (fun u f hu hf => ih u f hN.2.1 hS (fun hc y hy => hZ hc y (by simp [hy])) hu hf) h hf
    rw [← List.map_append] at hn
    obtain ⟨y, hy, rfl⟩ := List.mem_map.1 hn
    exact hZ hc y hy
  induction b with
  | nil =>
    intro ch w f _ _ _ h _
    exact ⟨h.1, rfl⟩
  | elem as k ih => exact fun ch w f hN hS hZ h hf => elemCase as _ k ch w f rfl (fun w f => ih ch w f) hN hS hZ h hf
  | anon as cas ext b k _ ih => exact fun ch w f hN hS hZ h hf => elemCase as _ k ch w f rfl (fun w f => ih ch w f) hN hS hZ h hf
  | elemAnon as ras fs k ih => exact fun ch w f hN hS hZ h hf => elemCase as _ k ch w f rfl (fun w f => ih ch w f) hN hS hZ h hf
  | seq as b k ihb ih =>
    intro ch w f hN hS hZ h hf
    have hNb : ((parts b).map (·.1)).Nodup := by
      rw [parts, List.map_append, List.nodup_append] at hN; exact hN.1
    refine partCase as b k (Lang false b) ch w f (fun w hw => lang_names hw) (fun u f hu hf => ?_) (fun w f => ih ch w f) hN hS.2.2.2 hZ h hf
    refine part_regroup hS.1 (hS.2.1.imp id fun hz n hn => ?_) (fun x f hx hf => ihb false x f hNb hS.2.2.1 (fun h => by cases h) hx hf) hu hf
    obtain ⟨y, hy, rfl⟩ := List.mem_map.1 hn
    exact hz y hy
  | all as b k ihb ih =>
    intro ch w f hN hS hZ h hf
    have hNb : ((parts b).map (·.1)).Nodup := by
      rw [parts, List.map_append, List.nodup_append] at hN; exact hN.1
    refine partCase as b k (fun x => ∃ y, x.Perm y ∧ Lang false b y) ch w f (fun w hw x hx => ?_) (fun u f hu hf => ?_) (fun w f => ih ch w f) hN
      hS.2.2.2 hZ h hf
    · obtain ⟨y, hp, hy⟩ := hw
      exact lang_names hy x (hp.mem_iff.1 hx)
    · refine part_regroup hS.1 (hS.2.1.imp id fun hz n hn => ?_) (fun x f hx hf => ?_) hu hf
      · obtain ⟨y, hy, rfl⟩ := List.mem_map.1 hn
        exact hz y hy
      · obtain ⟨y, hp, hy⟩ := hx
        exact ⟨_, .refl _, ihb false y f hNb hS.2.2.1 (fun h => by cases h) hy fun n hn => by rw [← hp.count_eq n]; exact hf n hn⟩
  | choice as b k ihb ih =>
    intro ch w f hN hS hZ h hf
    have hNb : ((parts b).map (·.1)).Nodup := by
      rw [parts, List.map_append, List.nodup_append] at hN; exact hN.1
    have hz : ∀ n ∈ (parts b).map (·.1), ¬ Z n := fun n hn => by
      obtain ⟨y, hy, rfl⟩ := List.mem_map.1 hn
      exact hS.1 y hy
    refine partCase as b k (Lang true b) ch w f (fun w hw => lang_names hw) (fun u f hu hf => ?_) (fun w f => ih ch w f) hN hS.2.2 hZ h hf
    rcases hS.2.1 with ⟨h1, h2⟩ | h1
    · exact part_regroup h1 (.inr hz) (fun x f hx hf => ihb true x f hNb h2 (fun _ => hS.1) hx hf) hu hf
    · exact flat_regroup h1 hNb hu fun n hn => (hf n hn).elim id fun h => absurd h.1 (hz n hn)
  | «attribute» as k ih => exact fun ch w f hN hS hZ h hf => ih ch w f hN hS hZ h hf
  | attrAnon as ras fs k ih => exact fun ch w f hN hS hZ h hf => ih ch w f hN hS hZ h hf

/-- The elements of a type and those it extends, if only one of them has elements. -/
theorem words_regroup {Z : Bool × Complex → Str → Prop} (ls : List (Bool × Complex)) :
    ∀ (w : List Str) (f : Str → Nat), ((ls.map (·.2)).Pairwise fun c d => parts c.body = [] ∨ parts d.body = []) →
    (∀ qc ∈ ls, ((parts qc.2.body).map (·.1)).Nodup) → (∀ qc ∈ ls, Steady (Z qc) qc.2.body) → Words (ls.map (·.2)) w →
    (∀ qc ∈ ls, Counts (Z qc) ((parts qc.2.body).map (·.1)) w f) → Words (ls.map (·.2)) (spread f (ls.flatMap fun qc => (parts qc.2.body).map (·.1))) := by
  induction ls with
  | nil => intro w f _ _ _ _ _; rfl
  | cons qc ls ih =>
    intro w f hp hN hS hw hf
    obtain ⟨u, v, rfl, hu, hv⟩ := hw
    rw [List.map_cons, List.pairwise_cons] at hp
    rw [List.flatMap_cons, spread_append]
    by_cases hc : parts qc.2.body = []
    · have hv0 : v = [] := List.eq_nil_iff_forall_not_mem.2 fun x hx => by
        have := lang_names hv x hx
        rw [hc] at this; cases this
      subst hv0
      rw [hc]
      refine ⟨_, [], by rw [List.append_nil]; rfl, ih u f hp.2 (fun x hx => hN x (by simp [hx])) (fun x hx => hS x (by simp [hx])) hu
        (fun x hx => ?_), hv⟩
      have := hf x (by simp [hx])
      rwa [List.append_nil] at this
    · have h0 : ∀ x ∈ ls, parts x.2.body = [] := fun x hx => (hp.1 x.2 (List.mem_map.2 ⟨x, hx, rfl⟩)).resolve_left hc
      have hu0 : u = [] := List.eq_nil_iff_forall_not_mem.2 fun x hx => by
        obtain ⟨c, hc', p, hp', -⟩ := C77.words_mem hu hx
        obtain ⟨y, hy, rfl⟩ := List.mem_map.1 hc'
        rw [h0 y hy] at hp'; cases hp'
      subst hu0
      have e : ls.flatMap (fun qc => (parts qc.2.body).map (·.1)) = [] := List.flatMap_eq_nil_iff.2 fun x hx => by rw [h0 x hx]; rfl
      rw [e]
      refine ⟨[], spread f ((parts qc.2.body).map (·.1)), by simp [spread], hu, ?_⟩
      exact regroup _ false v f (hN qc (by simp)) (hS qc (by simp)) (fun h => by cases h) hv (hf qc (by simp))

/-! ## What is written -/

section
variable [Uni]

/-- What is written has the name of what was read. -/
theorem wrote_name {S : Scalars} {t : Tree} {y : Str} {item out : Item} (h : C75.Wrote S t y item out) : out.name = item.name := by
  cases h <;> rfl

variable [UniLaws]

/-- Texts are written as they were read. -/
theorem wrote_text {S : Scalars} {t : Tree} {y s : Str} {item out : Item} (hy : C75.scalarOf t y = some s) (h : C75.Wrote S t y item out) : out = item := by
  cases h with
  | text _ => rfl
  | complex _ h1 h2 => exact absurd hy (C75.scalarOf_complex h1 h2)

variable {ds : List Top} (hs : Suitable ds) {t : Tree} (ht : C57.bare t = C57.bare (C77.treeFor ds))

/-- The elements of a type in the tree are in the order of the declarations. -/
theorem elems_order {ls : List (Bool × Complex)} {vs : List ComplexType} (h : C75.Each (C77.Level ds t) ls vs)
    (hN : ∀ qc ∈ ls, ((parts qc.2.body).map (·.1)).Nodup) : (C75.elems vs).map (·.name) = ls.flatMap fun qc => (parts qc.2.body).map (·.1) := by
  induction h with
  | nil => rfl
  | cons h1 _ ih =>
    obtain ⟨n, -, hS⟩ := h1
    rw [C75.elems_cons, List.map_append, List.flatMap_cons, hS.order (hN _ (by simp)), ih fun x hx => hN x (by simp [hx])]

include hs ht in
/-- What is written for a valid document is valid. -/
theorem written_valid {S : Scalars} {values : Xsd.Ty → Str → Prop}
    (hR : ∀ c n p l T, Named ds c n p → Bases builtin ds c l T → Regular S values ds p l)
    {τ : Xsd.Ty} {item : Item} (h : Valid builtin values ds τ item) :
    ∀ c, τ = .complex c → ∀ n p, Named ds c n p → ∀ out, C75.Wrote S t n item out → Valid builtin values ds τ out := by
  induction h with
  | @text τ n x h1 h2 => intro c e; subst e; cases h1
  | @complex c l T item hB hA hT hW hch ih =>
    rintro c' e n p hN out hw
    injection e with e
    subst e
    obtain ⟨l', T', hB', hF⟩ := hs.types c n p hN
    obtain ⟨e1, e2⟩ := C77.bases_unique hs hB hB'
    subst e1
    subst e2
    have hr := hR c n p l T hN hB
    obtain ⟨v, hv, hS⟩ := C77.named_decl hs ht hN
    obtain ⟨vs, hchain, hlev, hup, hct1, hct2⟩ := C77.chain_of hs ht hB hF.text hN hS
    obtain ⟨d, hd, hd'⟩ := C77.named_name hs ht hN
    have hbi := (hs.names d hd n hd').2.2.1
    have hattr := C77.attrs_level hlev
    rw [C77.levels_snd] at hattr
    have hnd : ((C75.elems (v :: vs)).map (·.name)).Nodup := C77.elems_nodup hlev (by rw [C77.levels_snd]; exact hF.apart)
    have hand : ((C75.attribs (v :: vs)).map (·.name)).Nodup := by
      rw [C77.each_names (fun a b h => h.1) hattr]
      exact hF.attrs
    cases hw with
    | text hw => exact absurd hw (C75.scalarOf_complex hbi hv)
    | @complex _ v' l' _ ga ge added _ hv' hc' hga hadd hlen hsub =>
      rw [hv] at hv'
      injection hv' with hv'
      injection hv' with hv'
      subst hv'
      have := C75.chain_unique hchain hc'
      subst this
      -- what is written for an element that is there
      have hfrom : ∀ e ∈ C75.elems (v :: vs), ¬ added e.name → ∀ x ∈ ge e.name, ∃ y ∈ item.children, y.name = e.name ∧
          C75.Wrote S t (Names.meaning t e.type) y x := by
        intro e he hn x hx
        obtain ⟨k, hk⟩ := List.getElem?_of_mem hx
        obtain ⟨hk', -⟩ := List.getElem?_eq_some_iff.1 hk
        rw [hlen e he hn] at hk'
        have hy := List.getElem?_eq_getElem hk'
        have hm := C75.named_name (List.mem_of_getElem? hy)
        exact ⟨_, hm.1, hm.2, hsub e he hn k _ x hy hk⟩
      have hname : ∀ e ∈ C75.elems (v :: vs), ∀ x ∈ ge e.name, x.name = e.name := by
        intro e he x hx
        by_cases hn : added e.name
        · rw [(hadd e he hn).2.2.2] at hx
          rw [List.mem_singleton.1 hx]; rfl
        · obtain ⟨y, -, h1, h2⟩ := hfrom e he hn x hx
          rw [wrote_name h2, h1]
      -- the declaration of an element
      have hdecl : ∀ e ∈ C75.elems (v :: vs), ∀ qc ∈ levels p l, ∀ x ∈ parts qc.2.body, x.1 = e.name → e.plural = said x.1 qc.1 qc.2.body ∧
          ∃ m, Named ds qc.2 m qc.1 ∧ Names.meaning t (C77.kindType (C77.refs ds) x.1 x.2) = Names.meaning t e.type := by
        intro e he qc hqc x hx hxe
        obtain ⟨w, hw, m, hM, hSw⟩ := C77.each_left hlev hqc
        obtain ⟨f, hf, h1⟩ := hSw.covers x hx
        obtain ⟨h2, y, hy, h3, h4⟩ := hSw.elements f hf
        have : f = e := C75.key_unique hnd (List.mem_flatMap.2 ⟨w, hw, hf⟩) he (h1.trans hxe)
        subst this
        refine ⟨by rw [h2, h1], m, hM, ?_⟩
        rw [h4, hSw.same x hx y hy (h1.symm.trans h3.symm)]
      -- elements that are added
      have hspare : ∀ e ∈ C75.elems (v :: vs), added e.name → ∀ qc ∈ levels p l, ∀ x ∈ parts qc.2.body, x.1 = e.name → Spare ds qc.1 qc.2 e.name ∧
          ∃ k, Has builtin ds x.2 (.text k) ∧ goOf k = some (Names.meaning t e.type) := by
        intro e he hn qc hqc x hx hxe
        obtain ⟨h1, m, hM, h2⟩ := hdecl e he qc hqc x hx hxe
        obtain ⟨g1, g2, g3, -⟩ := hadd e he hn
        obtain ⟨τ, hτ, -⟩ := hF.types qc hqc x hx
        obtain ⟨k1, k2, k3, k4⟩ := C77.kind_target hs ht hM hx hτ h2
        have hk : ∃ k, τ = .text k := by
          cases τ with
          | text k => exact ⟨k, rfl⟩
          | list k => exact absurd (C75.scalar_builtin g2) (k3 k rfl)
          | complex c' =>
            obtain ⟨q, hN', -⟩ := k4 c' rfl
            obtain ⟨d, hd, hd'⟩ := C77.named_name hs ht hN'
            exact absurd (C75.scalar_builtin g2) (hs.names d hd _ hd').2.2.1
        obtain ⟨k, rfl⟩ := hk
        refine ⟨⟨by rw [← hxe, ← h1, g1], ?_, x, hx, hxe, k, _, hτ, k2 k rfl, g2⟩, k, hτ, k2 k rfl⟩
        cases hm : must e.name qc.2.body with
        | false => rfl
        | true =>
          obtain ⟨w, hw1, hw2, hw3⟩ := C77.words_level hF.apart hW (C77.mem_levels hqc) hx
          have := hw3 _ (C77.lang_must e.name qc.2.body w hw1 hm)
          have hcnt := C77.named_count e.name item.children
          rw [g3] at hcnt
          exact absurd this (List.count_eq_zero.1 hcnt.symm)
      -- attributes
      have hgn : ∀ d ∈ C75.attribs (v :: vs), ∀ a ∈ ga d.name, a.1 = d.name := by
        intro d hd a ha
        rcases hga d hd with h1 | ⟨-, h1 | ⟨-, -, h1⟩⟩
        · rw [h1] at ha; simpa using (List.mem_filter.1 ha).2
        · rw [h1] at ha; cases ha
        · rw [h1] at ha; rw [List.mem_singleton.1 ha]
      have hone : ∀ d ∈ C75.attribs (v :: vs), (ga d.name).length ≤ 1 := by
        intro d hd
        rcases hga d hd with h1 | ⟨-, h1 | ⟨-, -, h1⟩⟩
        · rw [h1]
          rcases C75.once hA.once d.name with ⟨h2, -⟩ | ⟨s, h2, -⟩ <;> rw [h2] <;> simp
        · rw [h1]; exact Nat.zero_le _
        · rw [h1]; exact Nat.le_refl _
      have hsch : ∀ c ∈ l, ∀ sd ∈ attribs c.body, ∀ d ∈ C75.attribs (v :: vs), d.name = sd.name → d.optional = (!sd.required) ∧
          ∀ τ, Denotes builtin ds sd.type τ → Names.meaning t d.type = C77.refs ds sd.type := by
        intro c hc sd hsd d hd hn
        obtain ⟨b, hb, h1, h2, h3⟩ := C77.each_left hattr (List.mem_flatMap.2 ⟨c, hc, hsd⟩)
        have : b = d := C75.key_unique hand hb hd (h1.trans hn.symm)
        subst this
        refine ⟨h3, fun τ hτ => ?_⟩
        obtain ⟨g1, -⟩ := C77.denotes_scalar hs ht hτ
        rcases h2 with h2 | h2
        · rw [h2, g1]
        · rw [h2, C77.refs_thrice hs (C77.denotes_ne hs hτ), g1]
      refine .complex hB ⟨?_, ?_, ?_, ?_⟩ ?_ ?_ ?_
      · show (((C75.attribs (v :: vs)).flatMap fun d => ga d.name).map (·.1)).Nodup
        have e1 : ((C75.attribs (v :: vs)).flatMap fun d => ga d.name).map (·.1) = spread (fun n => (ga n).length) ((C75.attribs (v :: vs)).map (·.name)) := by
          rw [List.map_flatMap, spread, List.flatMap_map]
          rw [List.flatMap_def, List.flatMap_def]
          refine congrArg List.flatten (List.map_congr_left fun d hd => ?_)
          rw [List.eq_replicate_iff]
          refine ⟨List.length_map _, fun x hx => ?_⟩
          obtain ⟨y, hy, rfl⟩ := List.mem_map.1 hx
          exact hgn d hd y hy
        rw [e1, List.nodup_iff_count]
        intro m
        rw [count_spread hand]
        split
        · rename_i hm
          obtain ⟨d, hd, rfl⟩ := List.mem_map.1 hm
          exact hone d hd
        · exact Nat.zero_le _
      · intro a ha
        obtain ⟨d, hd, ha⟩ := List.mem_flatMap.1 ha
        obtain ⟨sd, hsd, h1, -⟩ := C77.each_right hattr hd
        obtain ⟨c, hc, hsd⟩ := List.mem_flatMap.1 hsd
        exact ⟨c, hc, sd, hsd, by rw [hgn d hd a ha, h1]⟩
      · intro a ha c hc sd hsd hn
        obtain ⟨d, hd, ha⟩ := List.mem_flatMap.1 ha
        rcases hga d hd with h1 | ⟨h0, h1 | ⟨h2, h3, h1⟩⟩
        · rw [h1] at ha
          exact hA.values a (List.mem_filter.1 ha).1 c hc sd hsd hn
        · rw [h1] at ha; cases ha
        · obtain ⟨g1, g2⟩ := hsch c hc sd hsd d hd (by rw [hn, hgn d hd a ha])
          obtain ⟨τ, hτ, -⟩ := hF.attrTypes c hc sd hsd
          have g3 := g2 τ hτ
          have htg := C77.denotes_target hs hτ
          rw [← g3] at htg
          have hk : ∃ k, τ = .text k ∧ goOf k = some (Names.meaning t d.type) := by
            generalize Names.meaning t d.type = y at htg h2
            cases htg with
            | text h => exact ⟨_, rfl, h⟩
            | list h => exact absurd (C75.scalar_builtin h2) (hs.names _ h _ (by simp [C77.allNames])).2.2.1
            | complex h => exact absurd (C75.scalar_builtin h2) (hs.names _ h _ (by simp [C77.allNames])).2.2.1
          obtain ⟨k, rfl, hk⟩ := hk
          refine ⟨_, hτ, rfl, ?_⟩
          rw [h1] at ha
          rw [List.mem_singleton.1 ha]
          have hq : sd.required = false := by
            rw [h0] at g1; simpa using g1.symm
          rcases hr.attrs c hc sd hsd hq k _ hτ hk h2 with h4 | h4
          · rw [h3] at h4; cases h4
          · exact h4
      · intro c hc sd hsd hq
        obtain ⟨d, hd, h1, -, h2⟩ := C77.each_left hattr (List.mem_flatMap.2 ⟨c, hc, hsd⟩)
        rw [hq] at h2
        rcases hga d hd with h3 | ⟨h3, -⟩
        · have := hA.required c hc sd hsd hq
          obtain ⟨a, ha, ha'⟩ := List.mem_map.1 this
          refine List.mem_map.2 ⟨a, List.mem_flatMap.2 ⟨d, hd, ?_⟩, ha'⟩
          rw [h3]
          exact List.mem_filter.2 ⟨ha, by simp [ha', h1]⟩
        · rw [h2] at h3; cases h3
      · exact hT
      · show Words l (((C75.elems (v :: vs)).flatMap fun e => ge e.name).map (·.name))
        have e1 : ((C75.elems (v :: vs)).flatMap fun e => ge e.name).map (·.name) = spread (fun n => (ge n).length) ((C75.elems (v :: vs)).map (·.name)) := by
          rw [List.map_flatMap, spread, List.flatMap_map]
          rw [List.flatMap_def, List.flatMap_def]
          refine congrArg List.flatten (List.map_congr_left fun e he => ?_)
          rw [List.eq_replicate_iff]
          refine ⟨List.length_map _, fun x hx => ?_⟩
          obtain ⟨y, hy, rfl⟩ := List.mem_map.1 hx
          exact hname e he y hy
        rw [e1, elems_order hlev fun qc hqc => hr.names _ (C77.mem_levels hqc)]
        have := words_regroup (Z := fun qc => Spare ds qc.1 qc.2) (levels p l) (item.children.map (·.name)) (fun n => (ge n).length)
          (by rw [C77.levels_snd]; exact hr.single) (fun qc hqc => hr.names _ (C77.mem_levels hqc)) (fun qc hqc => hr.steady qc hqc)
          (by rw [C77.levels_snd]; exact hW) (fun qc hqc n hn => ?_)
        · rwa [C77.levels_snd] at this
        · obtain ⟨x, hx, rfl⟩ := List.mem_map.1 hn
          obtain ⟨e, he, hxe⟩ := C77.level_elem hlev hqc hx
          rw [← hxe, ← C77.named_count]
          by_cases ha : added e.name
          · obtain ⟨g1, g2, g3, g4⟩ := hadd e he ha
            exact .inr ⟨(hspare e he ha qc hqc x hx hxe.symm).1, by rw [g3]; rfl, congrArg List.length g4⟩
          · exact .inl (hlen e he ha)
      · intro x hx dd hdd pp hpp hn τ hτ
        obtain ⟨e, he, hxe⟩ := List.mem_flatMap.1 hx
        have hne := hname e he x hxe
        obtain ⟨q, hq⟩ := C77.levels_mem (p := p) hdd
        obtain ⟨h1, m, hM, h2⟩ := hdecl e he (q, dd) hq pp hpp (hn.trans hne)
        obtain ⟨k1, k2, k3, k4⟩ := C77.kind_target hs ht hM hpp hτ h2
        by_cases ha : added e.name
        · obtain ⟨g1, g2, g3, g4⟩ := hadd e he ha
          obtain ⟨hsp, k, hk, hk'⟩ := hspare e he ha (q, dd) hq pp hpp (hn.trans hne)
          rw [g4] at hxe
          rw [List.mem_singleton.1 hxe, C77.has_unique hs hτ hk]
          refine .text rfl (hr.zeros (q, dd) hq pp hpp ?_ k _ hk hk' g2)
          rw [hn, hne]; exact hsp
        · obtain ⟨y, hy, hye, hw⟩ := hfrom e he ha x hxe
          have hyn : pp.1 = y.name := by rw [hn, hne, hye]
          have hval := hch y hy dd hdd pp hpp hyn τ hτ
          cases τ with
          | complex c' =>
            obtain ⟨r, hN', -⟩ := k4 c' rfl
            exact ih y hy dd hdd pp hpp hyn _ hτ c' rfl _ r hN' x hw
          | _ =>
            obtain ⟨τ', hτ', hor⟩ := hF.types (q, dd) hq pp hpp
            have := C77.has_unique hs hτ' hτ
            subst this
            rcases hor with ⟨g, -⟩ | ⟨c', e⟩
            · obtain ⟨s, hs'⟩ := Option.isSome_iff_exists.1 g
              rw [wrote_text (by rw [k1, hs']) hw]
              exact hval
            · cases e

/-- C86: if a valid document is read into the generated Go types, what is then written is valid, and says the same.
(Missing: see `Regular`, which excludes what is false, and C77's `Suitable`.) -/
theorem written_valid_partial {W : World} {cfg : Cfg} {sh : Shared} {ds : List Top} {toks : List Token} (hs : Suitable ds)
    (h : Document W cfg sh ds toks) (hl : cfg.lang = c!"Go") (hp : '\n' ∉ cfg.package) :
    ∃ source,
    (∀ text, W.gofmt source = some text → ∃ t sh', Parse W cfg sh = .ok t sh' ∧ sh'.outputs = sh.outputs ++ [(C24.documentedPath cfg c!".go", text)]) ∧
    (W.gofmt source = none → ∃ sh', Parse W cfg sh = .err .gofmt sh') ∧
    ∀ (S : Scalars) (values : Xsd.Ty → Str → Prop), (∀ τ x s, values τ x → scalar τ = some s → S.canon s x = some x) →
    (∀ c n p l T, Named ds c n p → Bases builtin ds c l T → Regular S values ds p l) →
    ∀ as cas c item, .root as cas c ∈ ds → item.name = nameOf as → Valid builtin values ds (.complex c) item →
    ∃ K out, (∀ k, K ≤ k → roundTrip S (program source) k (Names.strict (nameOf as)) item = some [out]) ∧
      Valid builtin values ds (.complex c) out ∧ out.name = item.name ∧ C75.Kept S True item out := by
  obtain ⟨t, h1, h2, h3, h4⟩ := C71.go_source h.core hl
  rw [hl] at h1
  refine ⟨goSource cfg.package t, fun text ht => ⟨t, h3 text ht⟩, h4, fun S values hV hR as cas c item hr hn hv => ?_⟩
  have hf := (C77.fits_of_valid (full := False) hs h1 hV (fun h => h.elim) hv).2 c rfl (nameOf as) false (.root hr) (.inr hn.symm)
  obtain ⟨v, hv', -⟩ := C77.named_decl hs h1 (Named.root hr)
  obtain ⟨K, out, g1, g2, -, g3⟩ := C75.round_trip_wrote (C77.sane_of hs h1 h2) hp ⟨v, (hs.names _ hr _ (by simp [C77.allNames])).2.2.1, hv'⟩ hn hf
  refine ⟨K, out, g1, written_valid hs h1 hR hv c rfl _ _ (.root hr) out g3.1, wrote_name g3.1, ?_⟩
  rwa [not_false_eq_true] at g2

end

/-! ## Checking schemas -/

section
variable [Uni]

/-- One is allowed. -/
def oneB (as : List Attr) : Bool :=
  (match attr? as c!"minOccurs" with | none => true | some v => v = c!"0" || v = c!"1") &&
  (match attr? as c!"maxOccurs" with | none => true | some v => v = c!"1" || v = c!"unbounded")

omit [Uni] in
theorem oneB_sound {as : List Attr} (h : oneB as = true) : Allowed as 1 := by
  simp only [oneB, Bool.and_eq_true] at h
  obtain ⟨h1, h2⟩ := h
  constructor
  · cases e : attr? as c!"minOccurs" with
    | none => exact Nat.le_refl 1
    | some v =>
      rw [e] at h1
      have hv : v = c!"0" ∨ v = c!"1" := by simpa using h1
      intro m hm
      rw [← ((Occurs.numeral_iff _ _).1 hm).2.2]
      rcases hv with rfl | rfl <;> decide
  · cases e : attr? as c!"maxOccurs" with
    | none => exact Nat.le_refl 1
    | some v =>
      rw [e] at h2
      have hv : v = c!"1" ∨ v = c!"unbounded" := by simpa using h2
      rcases hv with rfl | rfl
      · exact .inr ⟨1, (Occurs.atoi_iff _ _).1 (by decide), by decide⟩
      · exact .inl rfl

/-- `Steady`. -/
def steadyB (z : Str → Bool) : Body → Bool
  | .nil => true
  | .elem as k => (!z (nameOf as) || oneB as) && steadyB z k
  | .anon as _ _ _ k => (!z (nameOf as) || oneB as) && steadyB z k
  | .elemAnon as _ _ k => (!z (nameOf as) || oneB as) && steadyB z k
  | .seq as b k => !repeated as && (needed as || (parts b).all (fun x => !z x.1)) && steadyB z b && steadyB z k
  | .all as b k => !repeated as && (needed as || (parts b).all (fun x => !z x.1)) && steadyB z b && steadyB z k
  | .choice as b k => (parts b).all (fun x => !z x.1) && (!repeated as && steadyB z b || flat b) && steadyB z k
  | .attribute _ k => steadyB z k
  | .attrAnon _ _ _ k => steadyB z k

omit [Uni] in
theorem steadyB_sound {Z : Str → Prop} {z : Str → Bool} (hz : ∀ n, Z n → z n = true) (b : Body) (h : steadyB z b = true) : Steady Z b := by
  have one : ∀ {as : List Attr}, (!z (nameOf as) || oneB as) = true → Z (nameOf as) → Allowed as 1 := fun h hn => by
    rw [hz _ hn] at h
    exact oneB_sound (by simpa using h)
  have none : ∀ {l : List (Str × Kind)}, l.all (fun x => !z x.1) = true → ∀ x ∈ l, ¬ Z x.1 := fun h x hx hn => by
    have := List.all_eq_true.1 h x hx
    rw [hz _ hn] at this
    cases this
  induction b with
  | nil => trivial
  | elem as k ih => rw [steadyB, Bool.and_eq_true] at h; exact ⟨one h.1, ih h.2⟩
  | anon as cas ext b k _ ih => rw [steadyB, Bool.and_eq_true] at h; exact ⟨one h.1, ih h.2⟩
  | elemAnon as ras fs k ih => rw [steadyB, Bool.and_eq_true] at h; exact ⟨one h.1, ih h.2⟩
  | seq as b k ihb ih =>
    simp only [steadyB, Bool.and_eq_true, Bool.or_eq_true, Bool.not_eq_true'] at h
    exact ⟨h.1.1.1, h.1.1.2.imp id none, ihb h.1.2, ih h.2⟩
  | all as b k ihb ih =>
    simp only [steadyB, Bool.and_eq_true, Bool.or_eq_true, Bool.not_eq_true'] at h
    exact ⟨h.1.1.1, h.1.1.2.imp id none, ihb h.1.2, ih h.2⟩
  | choice as b k ihb ih =>
    simp only [steadyB, Bool.and_eq_true, Bool.or_eq_true, Bool.not_eq_true'] at h
    exact ⟨none h.1.1, h.1.2.imp (fun h => ⟨h.1, ihb h.2⟩) id, ih h.2⟩
  | «attribute» as k ih => exact ih h
  | attrAnon as ras fs k ih => exact ih h

/-- `Spare`. -/
def spareB (ds : List Top) (k : Nat) (q : Bool) (c : Complex) (n : Str) : Bool :=
  !said n q c.body && !must n c.body && (parts c.body).any fun x => x.1 = n && (match C77.hasType ds k x.2 with
    | some (.text b) => (goOf b).any fun s => s ∈ scalarTypes
    | some _ => false
    | none => true)

theorem spareB_complete {ds : List Top} (hs : Suitable ds) {k : Nat} {q : Bool} {c : Complex} {n : Str} (h : Spare ds q c n) : spareB ds k q c n = true := by
  obtain ⟨h1, h2, x, hx, hn, b, s, h3, h4, h5⟩ := h
  simp only [spareB, h1, h2, Bool.not_false, Bool.true_and]
  refine List.any_eq_true.2 ⟨x, hx, ?_⟩
  rw [Bool.and_eq_true]
  refine ⟨decide_eq_true hn, ?_⟩
  cases e : C77.hasType ds k x.2 with
  | none => rfl
  | some τ =>
    rw [C77.has_unique hs (C77.hasType_sound e) h3]
    show (goOf b).any _ = true
    rw [h4]
    exact decide_eq_true h5

/-- `Regular`, apart from the values. -/
def regularB (ds : List Top) (k : Nat) (p : Bool) (l : List Complex) : Bool :=
  decide (l.Pairwise fun c d => (parts c.body).isEmpty = true ∨ (parts d.body).isEmpty = true) &&
  decide (∀ c ∈ l, ((parts c.body).map (·.1)).Nodup) &&
  (levels p l).all fun qc => steadyB (spareB ds k qc.1 qc.2) qc.2.body

theorem regular_of_check {ds : List Top} {S : Scalars} {values : Xsd.Ty → Str → Prop} (k : Nat) (hs : Suitable ds)
    (hz : ∀ k s, goOf k = some s → s ∈ scalarTypes → values (.text k) (S.zero s))
    (h : ∀ d ∈ ds, ∀ x ∈ C77.typesOf d, (C77.basesOf ds k x.2.2).any (fun y => regularB ds k x.2.1 y.1) = true) :
    ∀ c n p l T, Named ds c n p → Bases builtin ds c l T → Regular S values ds p l := by
  intro c n p l T hN hB
  obtain ⟨d, hd, hm⟩ := C77.named_types hN
  obtain ⟨y, e, hf⟩ := C77.any_some (h d hd _ hm)
  rw [(C77.bases_unique hs hB (C77.basesOf_sound e)).1]
  simp only [regularB, Bool.and_eq_true, decide_eq_true_eq, List.all_eq_true] at hf
  exact ⟨hf.1.1.imp fun h => h.imp List.isEmpty_iff.1 List.isEmpty_iff.1, hf.1.2,
    fun qc hqc => steadyB_sound (fun n hn => spareB_complete hs hn) _ (hf.2 qc hqc),
    fun _ _ _ _ _ k s _ h1 h2 => hz k s h1 h2, fun _ _ _ _ _ k s _ h1 h2 => .inr (hz k s h1 h2)⟩

end

/-! ## Example -/

section
attribute [local instance] asciiUni
open C70 (a)
open C77 (lexical lexical_kept code lineType allowed_one allowed_many allowed_any)

/-- A type with an optional attribute. -/
def stampType : Complex := ⟨none, .attribute (a [("name", "at"), ("type", "xs:int")]) .nil⟩
/-- An anonymous type with an optional element. -/
def addrType : Complex := ⟨none, .all [] (.elem (a [("name", "city"), ("type", "xs:string")]) (.elem (a [("name", "zip"), ("type", "xs:int"), ("minOccurs", "0")]) .nil)) .nil⟩
/-- Optional elements, and a repeated choice. -/
def orderType : Complex := ⟨some (a [("base", "Stamp")]), .seq [] (.elem (a [("name", "line"), ("type", "Line"), ("maxOccurs", "unbounded")])
  (.elem (a [("name", "note"), ("type", "Code"), ("minOccurs", "0")]) (.anon (a [("name", "addr")]) [] addrType.ext addrType.body
  (.choice (a [("minOccurs", "0"), ("maxOccurs", "unbounded")]) (.elem (a [("name", "tag"), ("type", "xs:string")])
    (.elem (a [("name", "mark"), ("type", "xs:int")]) .nil)) .nil)))) .nil⟩

/-- The schema. -/
def schema : List Top := [code, .complex (a [("name", "Stamp")]) stampType, .complex (a [("name", "Line")]) lineType,
  .root (a [("name", "order")]) [] orderType]

theorem suitable : Suitable schema :=
  .of_check 6 (.of_rows (by decide +kernel) (by decide +kernel) (by decide +kernel) (by decide +kernel) (by decide +kernel) (by decide +kernel))
    (by decide +kernel) (by decide +kernel) (by decide +kernel)

theorem document : Document (Ex.world [("a.xsd", Xsd.tokens C40.root schema)]) (C59.doc c!"Go") {} schema (Xsd.tokens C40.root schema) :=
  ⟨rfl, by decide +kernel, ⟨C40.root, by decide +kernel⟩, by decide +kernel, .inr ⟨rfl, rfl, by decide, rfl⟩, by decide +kernel, rfl, rfl, fun _ => rfl⟩

theorem lexical_zero : ∀ k s, goOf k = some s → s ∈ scalarTypes → lexical (.text k) (C75.plain.zero s) := by
  intro k s h1 h2
  have e : scalar (.text k) = some s := by simp [scalar, h1, h2]
  by_cases hs : s = c!"string"
  · exact .inl (by rw [e, hs])
  · refine .inr ?_
    have : C75.plain.zero s = c!"0" := if_neg hs
    rw [this]
    decide

theorem regular : ∀ c n p l T, Named schema c n p → Bases builtin schema c l T → Regular C75.plain lexical schema p l :=
  regular_of_check 6 suitable lexical_zero (by decide +kernel)

/-- An order without a note, whose marks and tags are mixed. -/
def order : Item := .mk c!"order" [] [] [.mk c!"line" [(c!"qty", c!"2")] c!"nuts" [], .mk c!"addr" [] [] [.leaf c!"city" c!"Ulm"],
  .leaf c!"mark" c!"1", .leaf c!"tag" c!"x", .leaf c!"mark" c!"2"]

theorem leaf_valid {n x k : Str} (h : lexical (.text k) x) : Valid builtin lexical schema (.text k) (.leaf n x) := .text rfl h

theorem line_valid (q x : Str) (hq : q ≠ [] ∧ q.all Char.isDigit = true) :
    Valid builtin lexical schema (.complex lineType) (.mk c!"line" [(c!"qty", q)] x []) := by
  refine C77.Valid.of_check suitable 6 (l := [lineType]) (T := some (.text c!"string")) rfl ?_ (.inl rfl) ?_ (fun x hx => by cases hx)
  · refine C77.AttrsValid.of_check 6 (by simp [Item.attrs]) (by simp [Item.attrs]; decide +kernel) ?_ (by simp [Item.attrs]; decide +kernel)
    intro b hb c hc d hd _
    rw [List.mem_singleton.1 hb]
    rw [List.mem_singleton.1 hc] at hd
    rw [List.mem_singleton.1 hd]
    exact ⟨.text c!"int", rfl, rfl, .inr hq⟩
  · exact ⟨[], [], rfl, rfl, rfl, rfl⟩

theorem allowed_none {as : List Attr} (h1 : attr? as c!"minOccurs" = some c!"0") (h2 : attr? as c!"maxOccurs" = none) : Allowed as 0 := by
  refine ⟨?_, by rw [h2]; exact Nat.zero_le 1⟩
  rw [h1]
  intro m hm
  rw [← ((Occurs.numeral_iff _ _).1 hm).2.2]
  exact Nat.le_refl 0

theorem addr_valid : Valid builtin lexical schema (.complex addrType) (.mk c!"addr" [] [] [.leaf c!"city" c!"Ulm"]) := by
  refine C77.Valid.of_check suitable 6 (l := [addrType]) (T := none) rfl
    (C77.AttrsValid.of_check 6 (by decide) (by decide) (fun b hb => by cases hb) (by decide +kernel)) rfl ?_ ?_
  · refine ⟨[], [c!"city"], rfl, rfl, [c!"city"], [], rfl, ⟨[[c!"city"]], rfl, allowed_one rfl rfl, ?_⟩, rfl, rfl⟩
    intro x hx
    rw [List.mem_singleton.1 hx]
    exact ⟨_, .refl _, [c!"city"], [], rfl, ⟨by decide, allowed_one rfl rfl⟩, [], [], rfl, ⟨by decide, allowed_none rfl rfl⟩, rfl, rfl⟩
  · simp only [Item.children, List.forall_mem_cons]
    exact ⟨⟨_, rfl, leaf_valid (.inl rfl)⟩, fun x hx => by cases hx⟩

theorem order_valid : Valid builtin lexical schema (.complex orderType) order := by
  refine C77.Valid.of_check suitable 6 (l := [orderType, stampType]) (T := none) rfl ?_ rfl ?_ ?_
  · exact C77.AttrsValid.of_check 6 (by decide +kernel) (by decide +kernel) (fun b hb => by cases hb) (by decide +kernel)
  · refine ⟨[], [c!"line", c!"addr", c!"mark", c!"tag", c!"mark"], rfl, ⟨[], [], rfl, rfl, rfl, rfl⟩, ?_⟩
    refine ⟨[c!"line", c!"addr", c!"mark", c!"tag", c!"mark"], [], rfl, ⟨[[c!"line", c!"addr", c!"mark", c!"tag", c!"mark"]], rfl, allowed_one rfl rfl, ?_⟩, rfl, rfl⟩
    intro x hx
    rw [List.mem_singleton.1 hx]
    refine ⟨[c!"line"], [c!"addr", c!"mark", c!"tag", c!"mark"], rfl, ⟨by decide, allowed_many rfl rfl (by decide)⟩,
      [], [c!"addr", c!"mark", c!"tag", c!"mark"], rfl, ⟨by decide, allowed_none rfl rfl⟩,
      [c!"addr"], [c!"mark", c!"tag", c!"mark"], rfl, ⟨by decide, allowed_one rfl rfl⟩,
      [c!"mark", c!"tag", c!"mark"], [], rfl, ⟨[[c!"mark"], [c!"tag"], [c!"mark"]], rfl, allowed_any rfl rfl, ?_⟩, rfl, rfl⟩
    intro y hy
    simp only [List.mem_cons, List.not_mem_nil, or_false] at hy
    rcases hy with rfl | rfl | rfl
    · exact .inr (.inl ⟨by decide, allowed_one rfl rfl⟩)
    · exact .inl ⟨by decide, allowed_one rfl rfl⟩
    · exact .inr (.inl ⟨by decide, allowed_one rfl rfl⟩)
  · simp only [order, Item.children, List.forall_mem_cons]
    exact ⟨⟨_, rfl, line_valid _ _ (by decide)⟩, ⟨_, rfl, addr_valid⟩, ⟨_, rfl, leaf_valid (.inr (by decide))⟩, ⟨_, rfl, leaf_valid (.inl rfl)⟩,
      ⟨_, rfl, leaf_valid (.inr (by decide))⟩, fun x hx => by cases hx⟩

/-- The order is valid afterwards. -/
example : ∃ source K out, (∀ k, K ≤ k → roundTrip C75.plain (program source) k c!"Order" order = some [out]) ∧ Valid builtin lexical schema (.complex orderType) out := by
  obtain ⟨source, -, -, h⟩ := written_valid_partial suitable document rfl (by decide)
  obtain ⟨K, out, h1, h2, -⟩ := h C75.plain lexical lexical_kept regular _ _ _ order (List.mem_cons_of_mem _ (List.mem_cons_of_mem _
    (List.mem_cons_of_mem _ List.mem_cons_self))) rfl order_valid
  exact ⟨source, K, out, h1, h2⟩

/-- It is another document: there is an empty note, a number for the missing code, and tags come before marks. -/
example : C77.Gives schema c!"Order" order (.mk c!"order" [] [] [.mk c!"line" [(c!"qty", c!"2")] c!"nuts" [], .leaf c!"note" [],
  .mk c!"addr" [] [] [.leaf c!"city" c!"Ulm", .leaf c!"zip" c!"0"], .leaf c!"tag" c!"x", .leaf c!"mark" c!"1", .leaf c!"mark" c!"2"]) := by decide +kernel

/-! ## What is not valid any more -/

/-- What is written for the bill of C77. -/
def writtenBill : Item := .mk c!"bill" [(c!"keys", c!"k l")] [] [.leaf c!"total" c!"90", .mk c!"line" [(c!"qty", c!"2")] c!"nuts" [],
  .mk c!"line" [(c!"qty", c!"3")] c!"bolts" [], .leaf c!"note" c!"soon", .mk c!"addr" [] [] [.leaf c!"city" c!"Ulm", .leaf c!"zip" c!"89073"],
  .leaf c!"tag" c!"x", .leaf c!"tag" c!"y", .leaf c!"mark" c!"1"]

/-- Extensions: the elements of the type that is extended are written last, where they are not valid. -/
theorem extension_invalid : Valid builtin lexical C77.schema (.complex C77.billType) C77.bill ∧ C77.Gives C77.schema c!"Bill" C77.bill writtenBill ∧
    ∀ values, ¬ Valid builtin values C77.schema (.complex C77.billType) writtenBill := by
  refine ⟨C77.bill_valid, by decide +kernel, fun values h => ?_⟩
  cases h with
  | complex hB _ _ hW _ =>
    rw [(C77.bases_unique C77.suitable hB (C77.basesOf_sound (k := 6) (x := ([C77.billType, C77.orderType], none)) rfl)).1] at hW
    obtain ⟨u, v, e, -, hv⟩ := hW
    have h1 := C77.lang_must c!"total" _ v hv (by decide)
    have hne : v ≠ [] := fun h => by rw [h] at h1; cases h1
    have h2 : v.getLast? = some c!"mark" := by
      have := congrArg List.getLast? e
      rw [List.getLast?_append, Option.or_of_isSome (by cases v with
        | nil => exact absurd rfl hne
        | cons x v => simp)] at this
      exact this.symm
    have h3 := lang_names hv c!"mark" (List.mem_of_getLast? h2)
    exact absurd h3 (by decide)

/-- A choice. -/
def either : Body := .choice [] (.elem (a [("name", "x"), ("type", "xs:string")]) (.elem (a [("name", "y"), ("type", "xs:string")]) .nil)) .nil

theorem either_suitable : Suitable (C77.single either) :=
  .of_check 6 (.of_rows (by decide +kernel) (by decide +kernel) (by decide +kernel) (by decide +kernel) (by decide +kernel) (by decide +kernel))
    (by decide +kernel) (by decide +kernel) (by decide +kernel)

/-- Choices: what was not chosen is written, too. -/
theorem choice_invalid : ∃ item out, Valid builtin lexical (C77.single either) (.complex ⟨none, either⟩) item ∧ C77.Gives (C77.single either) c!"Order" item out ∧
    ∀ values, ¬ Valid builtin values (C77.single either) (.complex ⟨none, either⟩) out := by
  refine ⟨.mk c!"Order" [] [] ([(c!"x", c!"a")].map fun c => .leaf c.1 c.2), .mk c!"Order" [] [] [.leaf c!"x" c!"a", .leaf c!"y" []],
    C77.single_valid rfl ?_ ?_, by decide +kernel, fun values h => ?_⟩
  · intro p h
    rcases List.mem_cons.1 h with rfl | h
    · rfl
    rcases List.mem_cons.1 h with rfl | h
    · rfl
    cases h
  · refine ⟨[c!"x"], [], rfl, ⟨[[c!"x"]], rfl, allowed_one rfl rfl, ?_⟩, rfl, rfl⟩
    intro w hw
    rw [List.mem_singleton.1 hw]
    exact .inl ⟨by decide, allowed_one rfl rfl⟩
  · cases h with
    | complex hB _ _ hW _ =>
      rw [(C77.bases_unique either_suitable hB (.none rfl)).1] at hW
      obtain ⟨u, v, e, rfl, w, w', e', ⟨us, rfl, ha, hx⟩, -, rfl⟩ := hW
      subst e'
      have hl := C77.allowed_once ha (by decide)
      match us, hl, hx, e with
      | [], _, _, e => cases e
      | [y], _, hx, e =>
        have hy : y = [c!"x", c!"y"] := by simpa [Item.children, Item.leaf, Item.name] using e.symm
        subst hy
        rcases hx _ (List.mem_singleton.2 rfl) with h | h | h
        · exact absurd (h.1 c!"y" (by simp)) (by decide)
        · exact absurd (h.1 c!"x" (by simp)) (by decide)
        · exact absurd h.1 (by decide)
      | _ :: _ :: _, h, _, _ => simp at h

end

end Xgen.C86

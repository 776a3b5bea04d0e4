import Verif.Model.Faults
import Verif.Props.C85

/-! # C92: a run that is interrupted, and the run after it -/

namespace Xgen.C92
open Disk C84 C85
section
variable [Uni] [Xml.NameChars]

section
variable {W W' : World} {cwd : List Str} {c : Config} {ext : Str} {files : List Str} {S : Str → Prop}
variable {outs left : List (Str × Str)} {dirs : List (List Str)}

omit [Uni] [Xml.NameChars] in
/-- What an interrupted run has done is part of what it would have done. -/
theorem stopped_mem (h : Stopped cwd outs left dirs) :
    (∀ o ∈ left, ∃ o' ∈ outs, o.1 = o'.1 ∧ o.2 <+: o'.2) ∧ ∀ d ∈ dirs, ∃ o ∈ outs, d <+: place cwd o.1 := by
  cases h with
  | before k dirs h =>
    refine ⟨fun o ho => ⟨o, List.mem_of_mem_take ho, rfl, List.prefix_refl _⟩, fun d hd => ?_⟩
    obtain ⟨o, h1, h2⟩ := h d hd
    exact ⟨o, List.mem_of_getElem? h1, h2⟩
  | during k o h part hp =>
    refine ⟨fun o' ho => ?_, nofun⟩
    rcases List.mem_append.1 ho with ho | ho
    · exact ⟨o', List.mem_of_mem_take ho, rfl, List.prefix_refl _⟩
    · rw [List.mem_singleton.1 ho]
      exact ⟨o, List.mem_of_getElem? h, rfl, hp⟩

/-- C92: whenever the command is interrupted, what it looks at is as it was before. -/
theorem reads_intact [UniLaws] (walk : Str → List Str) (f : Flags) (hc : parseFlags f = .go c)
    (hl : getFileList W walk c.i = some files) (he : (c.lang, ext) ∈ C24.extensions) (hA : Apart W cwd c ext files S) {n : Nat}
    (hn : W.fs.length + 2 ≤ n) (hs : Stopped cwd (mainNow W cwd n walk f).2.outputs left dirs) {q : Str} (hq : S q) :
    lookStopped W cwd left dirs q = W.fs.get? q := by
  rw [as_at_the_start walk f hc hl he hA hn] at hs
  obtain ⟨h1, h2⟩ := stopped_mem hs
  have ht := writes_targets walk f hc hl he hA
  unfold lookStopped
  rw [look_apart fun o ho => by
    obtain ⟨o', ho', e, -⟩ := h1 o ho
    rw [e]
    exact hA.apart q o'.1 hq (ht o' ho')]
  cases e : W.fs.get? q with
  | some en => rfl
  | none =>
    dsimp only
    rw [if_neg]
    intro hd
    obtain ⟨o, ho, hp⟩ := h2 _ hd
    have := (hA.apart q o.1 hq (ht o ho)).2 hp
    rw [GoMap.has, e] at this
    cases this

/-- C92: run again after an interruption, at whatever moment it came, the command does exactly what it would have done had
it not been interrupted: the same exit, the same files, the same texts. -/
theorem restart_partial [UniLaws] (walk walk' : Str → List Str) (f : Flags) (hc : parseFlags f = .go c)
    (hl : getFileList W walk c.i = some files) (hl' : getFileList W' walk' c.i = some files)
    (he : (c.lang, ext) ∈ C24.extensions) (hA : Apart W cwd c ext files S) (ho : OtherFiles W W') {n n' : Nat}
    (hn : W.fs.length + 2 ≤ n) (hn' : W'.fs.length + 2 ≤ n')
    (hs : Stopped cwd (mainNow W cwd n walk f).2.outputs left dirs)
    (h : ∀ q, S q → W'.fs.get? q = lookStopped W cwd left dirs q) :
    mainNow W' cwd n' walk' f = mainNow W cwd n walk f :=
  now_same walk walk' f hc hl hl' he hA ho hn hn' fun q hq => by
    rw [h q hq, reads_intact walk f hc hl he hA hn hs hq]

omit [Uni] in
/-- C92: and then the disk is, at every path, as it would be after a run without interruption. -/
theorem restored (hs : Stopped cwd outs left dirs) (q : Str) (h : W'.fs.get? q = lookStopped W cwd left dirs q) :
    look W' cwd outs q = look W cwd outs q := by
  obtain ⟨h1, h2⟩ := stopped_mem hs
  unfold lookStopped look at h
  unfold look
  cases e : outs.reverse.find? (fun o => place cwd o.1 = place cwd q) with
  | some o => rfl
  | none =>
    have hno : left.reverse.find? (fun o => place cwd o.1 = place cwd q) = none := by
      rw [List.find?_eq_none] at e ⊢
      intro o ho
      obtain ⟨o', ho', e', -⟩ := h1 o (List.mem_reverse.1 ho)
      rw [e']
      exact e o' (List.mem_reverse.2 ho')
    rw [hno] at h
    dsimp only at h ⊢
    cases ew : W.fs.get? q with
    | some en => rw [ew] at h; rw [h]
    | none =>
      rw [ew] at h
      dsimp only at h ⊢
      have hany : ∀ o ∈ outs, place cwd q <+: place cwd o.1 →
          outs.any (fun o => (place cwd q).isPrefixOf (place cwd o.1)) = true := fun o ho hp =>
        List.any_eq_true.2 ⟨o, ho, List.isPrefixOf_iff_prefix.2 hp⟩
      by_cases hl : left.any (fun o => (place cwd q).isPrefixOf (place cwd o.1)) = true
      · rw [if_pos hl] at h
        obtain ⟨o, ho, hp⟩ := List.any_eq_true.1 hl
        obtain ⟨o', ho', e', -⟩ := h1 o ho
        rw [h, if_pos (hany o' ho' (by rw [← e']; exact List.isPrefixOf_iff_prefix.1 hp))]
      · rw [if_neg hl] at h
        dsimp only at h
        by_cases hd : place cwd q ∈ dirs
        · obtain ⟨o, ho, hp⟩ := h2 _ hd
          rw [h, if_pos hd, if_pos (hany o ho hp)]
        · rw [h, if_neg hd]

end

/-! ## What an interruption leaves -/

/-- The text of the last file written at a place. -/
def textAt (cwd : List Str) (outs : List (Str × Str)) (q : List Str) : Option Str :=
  (outs.reverse.find? (fun o => place cwd o.1 = q)).map (·.2)

omit [Uni] [Xml.NameChars] in
theorem textAt_append (cwd : List Str) (a b : List (Str × Str)) (q : List Str) :
    textAt cwd (a ++ b) q = (textAt cwd b q).or (textAt cwd a q) := by
  unfold textAt
  rw [List.reverse_append, List.find?_append]
  cases b.reverse.find? (fun o => place cwd o.1 = q) <;> rfl

omit [Uni] [Xml.NameChars] in
theorem textAt_mem {cwd : List Str} {outs : List (Str × Str)} {q : List Str} {t : Str} (h : textAt cwd outs q = some t) :
    ∃ o ∈ outs, place cwd o.1 = q ∧ o.2 = t := by
  unfold textAt at h
  cases e : outs.reverse.find? (fun o => place cwd o.1 = q) with
  | none => rw [e] at h; cases h
  | some o =>
    rw [e] at h
    cases h
    exact ⟨o, List.mem_reverse.1 (List.mem_of_find?_eq_some e), by simpa using List.find?_some e, rfl⟩

omit [Uni] [Xml.NameChars] in
theorem textAt_none {cwd : List Str} {outs : List (Str × Str)} {q : List Str} (h : ∀ o ∈ outs, place cwd o.1 ≠ q) :
    textAt cwd outs q = none := by
  unfold textAt
  rw [List.find?_eq_none.2 fun o ho => by simpa using h o (List.mem_reverse.1 ho)]
  rfl

omit [Uni] [Xml.NameChars] in
/-- C92: an interruption leaves, of the files it has written to, all whole but at most one, of which it leaves a beginning. -/
theorem whole_or_torn {cwd : List Str} {outs left : List (Str × Str)} {dirs : List (List Str)}
    (hs : Stopped cwd outs left dirs) : ∃ torn : List Str, ∀ q t, textAt cwd left q = some t →
      (∃ o ∈ outs, place cwd o.1 = q ∧ t = o.2) ∨ q = torn ∧ ∃ o ∈ outs, place cwd o.1 = q ∧ t <+: o.2 := by
  cases hs with
  | before k dirs h =>
    refine ⟨[], fun q t ht => ?_⟩
    obtain ⟨o, ho, hq, e⟩ := textAt_mem ht
    exact Or.inl ⟨o, List.mem_of_mem_take ho, hq, e.symm⟩
  | during k o h part hp =>
    refine ⟨place cwd o.1, fun q t ht => ?_⟩
    obtain ⟨o', ho', hq, e⟩ := textAt_mem ht
    rcases List.mem_append.1 ho' with ho' | ho'
    · exact Or.inl ⟨o', List.mem_of_mem_take ho', hq, e.symm⟩
    · rw [List.mem_singleton.1 ho'] at hq e
      exact Or.inr ⟨hq.symm, o, List.mem_of_getElem? h, hq, e ▸ hp⟩

omit [Uni] [Xml.NameChars] in
/-- C92: where no two files are written to the same place, an interruption leaves at most one file that is not whole; every
other place has either not been written to yet or holds what it will hold in the end. -/
theorem one_torn {cwd : List Str} {outs left : List (Str × Str)} {dirs : List (List Str)}
    (hd : (outs.map fun o => place cwd o.1).Nodup) (hs : Stopped cwd outs left dirs) :
    ∃ torn : List Str, ∀ q, textAt cwd left q = none ∨ textAt cwd left q = textAt cwd outs q ∨
      q = torn ∧ ∃ t p, textAt cwd outs q = some t ∧ textAt cwd left q = some p ∧ p <+: t := by
  have key : ∀ k q t, textAt cwd (outs.take k) q = some t → textAt cwd outs q = some t := by
    intro k q t h
    have hsplit := List.take_append_drop k outs
    obtain ⟨o, ho, hq, -⟩ := textAt_mem h
    have hnone : textAt cwd (outs.drop k) q = none := by
      refine textAt_none fun o' ho' e => ?_
      rw [← hsplit, List.map_append] at hd
      exact (List.nodup_append.1 hd).2.2 _ (List.mem_map_of_mem ho) _ (List.mem_map_of_mem ho') (hq.trans e.symm)
    have := textAt_append cwd (outs.take k) (outs.drop k) q
    rw [hsplit, hnone, h] at this
    exact this
  cases hs with
  | before k dirs h =>
    refine ⟨[], fun q => ?_⟩
    cases e : textAt cwd (outs.take k) q with
    | none => exact Or.inl rfl
    | some t => exact Or.inr (Or.inl (key k q t e).symm)
  | during k o h part hp =>
    refine ⟨place cwd o.1, fun q => ?_⟩
    by_cases hq : q = place cwd o.1
    · refine Or.inr (Or.inr ⟨hq, o.2, part, ?_, ?_, hp⟩)
      · have h1 : outs.take (k + 1) = outs.take k ++ [o] := by rw [List.take_succ, h]; rfl
        refine key (k + 1) q o.2 ?_
        rw [h1, textAt_append]
        simp [textAt, hq]
      · rw [textAt_append]
        simp [textAt, hq]
    · have h1 : textAt cwd [(o.1, part)] q = none := textAt_none fun o' ho' e => by
        rw [List.mem_singleton.1 ho'] at e
        exact hq e.symm
      rw [textAt_append, h1]
      cases e : textAt cwd (outs.take k) q with
      | none => exact Or.inl rfl
      | some t => exact Or.inr (Or.inl (key k q t e).symm)

end

/-! ## Example -/

/-- What the run of `C84.W1` writes. -/
def outs1 : List (Str × Str) := (@mainNow asciiUni C81.asciiNames W1 [c!"home", c!"me"] 5 walk1 flags1).2.outputs

/-- What it has written when it is stopped while it writes its second file. -/
def left1 : List (Str × Str) := outs1.take 1 ++ [(c!"out/a.xsd.go", c!"// Code gen")]

theorem stopped1 : Stopped [c!"home", c!"me"] outs1 left1 [] := by
  have h : outs1[1]? = some (c!"out/a.xsd.go", ((outs1[1]?).map (·.2)).getD []) := by decide +kernel
  exact .during 1 _ h _ (List.isPrefixOf_iff_prefix.1 (by decide +kernel))

/-- The disk that is left: one file is whole, one is not, one is missing. -/
def W1cut : World := { W1 with fs := W1.fs ++ [(c!"out", .dir), (c!"out/in", .dir), (c!"out/in/b.xsd.go", .file []),
  (c!"out/a.xsd.go", .file [])] }

example : @mainNow asciiUni C81.asciiNames W1cut [c!"home", c!"me"] 10 walk1 flags1 =
    @mainNow asciiUni C81.asciiNames W1 [c!"home", c!"me"] 5 walk1 flags1 :=
  have hr : ∀ q ∈ [c!"in", c!"in/a.xsd", c!"in/b.xsd"],
      W1cut.fs.get? q = @lookStopped C81.asciiNames W1 [c!"home", c!"me"] left1 [] q := by
    intro q hq
    simp only [List.mem_cons, List.not_mem_nil, or_false] at hq
    rcases hq with rfl | rfl | rfl <;> decide +kernel
  @restart_partial asciiUni C81.asciiNames W1 W1cut [c!"home", c!"me"] config1 c!".go" (walk1 c!"in" ++ [c!"in"])
    (· ∈ [c!"in", c!"in/a.xsd", c!"in/b.xsd"]) left1 [] asciiUniLaws walk1 walk1 flags1 rfl rfl rfl (by decide) (@apart1 asciiUni C81.asciiNames)
    ⟨rfl, rfl, rfl, rfl, rfl⟩ 5 10 (by decide) (by decide) stopped1 hr

example : (outs1.map fun o => place [c!"home", c!"me"] o.1).Nodup ∧
    textAt [c!"home", c!"me"] left1 [c!"home", c!"me", c!"out", c!"b.xsd.go"] = none ∧
    textAt [c!"home", c!"me"] left1 [c!"home", c!"me", c!"out", c!"a.xsd.go"] = some c!"// Code gen" := by
  decide +kernel

/-! ## Files are not replaced at once, and generating in place cannot be taken up again -/

/-- The disk of `C84.W1` with the file generated for `in/a.xsd` by an earlier run. -/
def W1old : World := { W1 with fs := (c!"out/a.xsd.go", .file [Token.start c!"kept" []]) :: W1.fs }

/-- C92: an interruption can cost a file that was whole before: `os.Create` empties it before the new text is written. -/
theorem old_lost : Stopped [c!"home", c!"me"] outs1 (outs1.take 1 ++ [(c!"out/a.xsd.go", [])]) [] ∧
    W1old.fs.get? c!"out/a.xsd.go" = some (.file [Token.start c!"kept" []]) ∧
    (@lookStopped C81.asciiNames W1old [c!"home", c!"me"] (outs1.take 1 ++ [(c!"out/a.xsd.go", [])]) [] c!"out/a.xsd.go") =
      some (.file []) := by
  refine ⟨?_, rfl, by decide +kernel⟩
  have h : outs1[1]? = some (c!"out/a.xsd.go", ((outs1[1]?).map (·.2)).getD []) := by decide +kernel
  exact .during 1 _ h [] (List.nil_prefix)

/-- The disk after the run `-i in -o in` of `C85.W3` was stopped right after the file was created. -/
def W3cut : World := { W3 with fs := (c!"in/a.xsd.go", .file []) :: W3.fs }

/-- The run after that, which lists the file that was left among the schemas. -/
def retried : Exit × Shared := @mainNow asciiUni C81.asciiNames W3cut [c!"home"] 6
  (fun _ => [c!"in", c!"in/a.xsd", c!"in/a.xsd.go"]) flags3

/-- C92 is false when the output directory is the input directory: the empty file left behind is taken for a schema when
the command is run again, and in the end there is a file without any declaration.  The command says "done". -/
theorem in_place_restart :
    Stopped [c!"home"] first.2.outputs [(c!"in/a.xsd.go", [])] [] ∧
    (∀ q ∈ [c!"in", c!"in/a.xsd", c!"in/a.xsd.go"],
      W3cut.fs.get? q = @lookStopped C81.asciiNames W3 [c!"home"] [(c!"in/a.xsd.go", [])] [] q) ∧
    retried.1 = .done ∧
    final first.2.outputs c!"in/a.xsd.go" = some (c!"// Code generated by xgen. DO NOT EDIT.\n\npackage schema\n\r\n" ++
      c!"// Point ...\r\ntype Point struct {\n\tX\tint\t`xml:\"x\"`\n}\n") ∧
    final retried.2.outputs c!"in/a.xsd.go" = some c!"// Code generated by xgen. DO NOT EDIT.\n\npackage schema\n" := by
  refine ⟨?_, ?_, by decide +kernel⟩
  · have h : first.2.outputs[0]? = some (c!"in/a.xsd.go", ((first.2.outputs[0]?).map (·.2)).getD []) := by decide +kernel
    exact .during 0 _ h [] (List.nil_prefix)
  · intro q hq
    simp only [List.mem_cons, List.not_mem_nil, or_false] at hq
    rcases hq with rfl | rfl | rfl <;> decide +kernel

end Xgen.C92

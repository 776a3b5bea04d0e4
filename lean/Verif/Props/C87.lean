import Verif.Props.C86

/-! # C87: a second round changes nothing

`TestGeneratedGo` (/repo/xml_test.go:20-50) demands that a document that is read into the generated Go types, and written again,
comes out as it was.  That cannot hold for every document: elements are put in the order of the fields, attributes with empty
values are left out, and zero values are written where something is missing (C75, C77).  But it holds for every document that has
been written in this way, so that a program that reads and writes its own documents keeps them as they are. -/

namespace Xgen.C87
open Core GoXml C40 Decl Xsd
open C77 (builtin goOf scalar Suitable Named Document)

section
variable [Uni] [UniLaws]

/-- What is written for a document that fits a type of its name comes out the same in a second round. -/
theorem second_round {S : Scalars} (hz : C75.ZeroLaws S) {tree : Tree} (hs : C75.Sane tree) {pkg : Str} (hp : '\n' ∉ pkg) {full : Prop} {t : Str} {item : Item}
    (hd : ∃ v, t ∉ goBuildinType ∧ C75.declOf tree t = some (.complex v)) (hn : item.name = t) (h : C75.Fits S tree full t item) :
    ∃ K out, ∀ k, K ≤ k → roundTrip S (program (goSource pkg tree)) k (Names.strict t) item = some [out] ∧
      roundTrip S (program (goSource pkg tree)) k (Names.strict t) out = some [out] := by
  obtain ⟨K, out, h1, h2, -, -, h3⟩ := C75.round_trip_wrote hs hp hd hn h
  obtain ⟨h4, h5⟩ := h3 hz
  obtain ⟨K', out', h6, -, h7, -⟩ := C75.round_trip_wrote hs hp hd ((C75.kept_name h2).symm.trans hn) h4
  rw [h7 trivial h5] at h6
  exact ⟨max K K', out, fun k hk => ⟨h1 k (by omega), h6 k (by omega)⟩⟩

/-- C87: if a valid document is read into the generated Go types and written again, reading and writing what was written once
more does not change it. -/
theorem settled {W : World} {cfg : Cfg} {sh : Shared} {ds : List Top} {toks : List Token} (hs : Suitable ds)
    (h : Document W cfg sh ds toks) (hl : cfg.lang = c!"Go") (hp : '\n' ∉ cfg.package) :
    ∃ source,
    (∀ text, W.gofmt source = some text → ∃ t sh', Parse W cfg sh = .ok t sh' ∧ sh'.outputs = sh.outputs ++ [(C24.documentedPath cfg c!".go", text)]) ∧
    (W.gofmt source = none → ∃ sh', Parse W cfg sh = .err .gofmt sh') ∧
    ∀ (S : Scalars) (values : Xsd.Ty → Str → Prop), C75.ZeroLaws S → (∀ τ x s, values τ x → scalar τ = some s → S.canon s x = some x) →
    ∀ as cas c item, .root as cas c ∈ ds → item.name = nameOf as → Valid builtin values ds (.complex c) item →
    ∃ K out, ∀ k, K ≤ k → roundTrip S (program source) k (Names.strict (nameOf as)) item = some [out] ∧
      roundTrip S (program source) k (Names.strict (nameOf as)) out = some [out] := by
  obtain ⟨t, h1, h2, h3, h4⟩ := C71.go_source h.core hl
  rw [hl] at h1
  refine ⟨goSource cfg.package t, fun text ht => ⟨t, h3 text ht⟩, h4, fun S values hz hV as cas c item hr hn hv => ?_⟩
  have hf := (C77.fits_of_valid (full := False) hs h1 hV (fun h => h.elim) hv).2 c rfl (nameOf as) false (.root hr) (.inr hn.symm)
  obtain ⟨v, hv', -⟩ := C77.named_decl hs h1 (Named.root hr)
  exact second_round hz (C77.sane_of hs h1 h2) hp ⟨v, (hs.names _ hr _ (by simp [C77.allNames])).2.2.1, hv'⟩ hn hf

end

/-! ## Examples -/

section
attribute [local instance] asciiUni

theorem plain_laws : C75.ZeroLaws C75.plain where
  kept t _ := by
    by_cases h : t = c!"string"
    · exact if_pos (.inl h)
    · have : C75.plain.zero t = c!"0" := if_neg h
      rw [this]
      exact if_pos (.inr (by decide))
  empty t _ _ := decide_eq_true rfl

/-- The order of C86 changes in the first round, and not any more in the second. -/
example : ∃ source K out, ∀ k, K ≤ k → roundTrip C75.plain (program source) k c!"Order" C86.order = some [out] ∧
    roundTrip C75.plain (program source) k c!"Order" out = some [out] := by
  obtain ⟨source, -, -, h⟩ := settled C86.suitable C86.document rfl (by decide)
  obtain ⟨K, out, h1⟩ := h C75.plain C77.lexical plain_laws C77.lexical_kept _ _ _ C86.order (List.mem_cons_of_mem _ (List.mem_cons_of_mem _
    (List.mem_cons_of_mem _ List.mem_cons_self))) rfl C86.order_valid
  exact ⟨source, K, out, h1⟩

/-- What the order becomes. -/
def written : Item := .mk c!"order" [] [] [.mk c!"line" [(c!"qty", c!"2")] c!"nuts" [], .leaf c!"note" [],
  .mk c!"addr" [] [] [.leaf c!"city" c!"Ulm", .leaf c!"zip" c!"0"], .leaf c!"tag" c!"x", .leaf c!"mark" c!"1", .leaf c!"mark" c!"2"]

example : C77.Gives C86.schema c!"Order" C86.order written ∧ C77.Gives C86.schema c!"Order" written written := by decide +kernel

/-- Likewise for the bill of C77, with extensions: what is written is not valid (C86), but stays as it is. -/
example : ∃ source K out, ∀ k, K ≤ k → roundTrip C75.plain (program source) k c!"Bill" C77.bill = some [out] ∧
    roundTrip C75.plain (program source) k c!"Bill" out = some [out] := by
  obtain ⟨source, -, -, h⟩ := settled C77.suitable C77.document rfl (by decide)
  obtain ⟨K, out, h1⟩ := h C75.plain C77.lexical plain_laws C77.lexical_kept _ _ _ C77.bill (List.mem_cons_of_mem _ (List.mem_cons_of_mem _
    (List.mem_cons_of_mem _ (List.mem_cons_of_mem _ List.mem_cons_self)))) rfl C77.bill_valid
  exact ⟨source, K, out, h1⟩

/-- Numbers whose zero value is written in a way that cannot be read. -/
def odd : Scalars := { C75.plain with zero := fun t => if t = c!"string" then [] else c!"none" }

/-- The laws are needed: with such numbers, a second round fails. -/
theorem laws_needed : ∃ out, (roundTrip odd (program (C77.file C86.schema)) 12 c!"Order" C86.order).any (fun l => C75.sameAll l [out]) = true ∧
    (roundTrip odd (program (C77.file C86.schema)) 12 c!"Order" out).isNone = true :=
  ⟨.mk c!"order" [] [] [.mk c!"line" [(c!"qty", c!"2")] c!"nuts" [], .leaf c!"note" [],
    .mk c!"addr" [] [] [.leaf c!"city" c!"Ulm", .leaf c!"zip" c!"none"], .leaf c!"tag" c!"x", .leaf c!"mark" c!"1", .leaf c!"mark" c!"2"],
    by decide +kernel⟩

end

end Xgen.C87

import Verif.Lemmas.Path
import Verif.Props.C05
import Verif.Props.C07
import Verif.Props.C22

/-! # C27, C28: references to built-in and to undeclared types -/

namespace Xgen
variable [Uni]

namespace C27

/-- C27: whatever the schema, the registries, the file system and the behaviour of nested parses (`rec` could even
panic), a reference whose local part is a built-in name gets the table entry; nothing is read or changed. -/
theorem builtin_local (W : World) (rec : Cfg → Go Shared Tree) (cfg : Cfg) (value : Str) (tree : Tree) (sh : Shared)
    (h : trimNSPrefix value ∈ C05.xsdNames) :
    ∃ t, getBuildInTypeByLang (trimNSPrefix value) cfg.lang = some t ∧
      getValueType W rec cfg value tree sh = .ok (t, none) sh := by
  obtain ⟨t, ht⟩ := Option.isSome_iff_exists.mp ((C05.found_iff _ cfg.lang).mpr h)
  exact ⟨t, ht, by simp [getValueType, ht]⟩

/-- With a schema that declares the same name and with a resolver that would panic. -/
example : getValueType (Ex.world []) (fun _ => Go.panic) { filePath := c!"a.xsd", lang := c!"Java" } c!"xs:int"
    [some (.simple { name := c!"int", base := c!"Foo" })] {} = .ok (c!"Integer", none) {} := by decide

end C27

namespace C28

/-- C28: a name that is neither built-in nor declared, in a namespace without known location, with no includes: the
result is the local name, without error; no file is read and no registry changes (only the count of iteration choices
of the model does).  The directory of the schema exists and the empty string is not a URL. -/
theorem unknown_is_local_name (W : World) (rec : Cfg → Go Shared Tree) (cfg : Cfg) (value : Str) (tree : Tree)
    (sh : Shared) (hb : trimNSPrefix value ∉ C05.xsdNames)
    (hd : ∀ n ∈ tree, ∀ t, C07.declares n ≠ some (trimNSPrefix value, t))
    (hl : sh.nsLoc.get? (sh.localNS.getStr (getNSPrefix value)) = none) (hi : sh.includeMap = [])
    (hu : W.isURL [] = false) (hdir : W.fs.get? (pathDir cfg.filePath) = some .dir) :
    ∃ k, getValueType W rec cfg value tree sh = .ok (trimNSPrefix value, none) { sh with tick := k } := by
  have h1 : getBuildInTypeByLang (trimNSPrefix value) cfg.lang = none := by
    rw [← C05.found_iff (trimNSPrefix value) cfg.lang] at hb
    simpa using hb
  have h2 := C07.resolves_none _ tree hd
  have h3 : sh.nsLoc.getStr (sh.localNS.getStr (getNSPrefix value)) = [] := by
    rw [GoMap.getStr, hl]; rfl
  have h4 : pathJoin cfg.fileDir [] = pathDir cfg.filePath := pathJoin_dir_nil _
  unfold getValueType
  simp only [h1, h2, ne_eq, not_true_eq_false, decide_false, Bool.false_and, Bool.false_eq_true, if_false]
  split
  · exact ⟨sh.tick, rfl⟩
  · refine ⟨sh.tick + 1, ?_⟩
    simp only [resolveOutside, h3, hu, Bool.false_eq_true, if_false, h4, hdir, hi, GoMap.keys, List.map_nil,
      List.length_nil, includeLoop, nextKey]
    simp

open Ex in
example : getValueType (world []) (fun _ => Go.panic) { filePath := c!"a.xsd", lang := c!"Go" } c!"p:Foo"
    [some (.complex { name := c!"Foo" })] { localNS := [(c!"p", c!"urn:p")] } =
    .ok (c!"Foo", none) { localNS := [(c!"p", c!"urn:p")], tick := 1 } := by decide

end C28
end Xgen

# A Lean 4 model of xuri/xgen: design

The Go code in `/repo` is modelled function by function as total, computable Lean functions; the properties of
`properties.jsonl` are theorems about these functions, quantified over all inputs, parser states, file systems and map
iteration orders. `MANIFEST.json` maps each property to its theorems, `seeded/LOG.jsonl` records how the theorems were
tested against wrong programs.

## Layout (`lean/Verif`)

| Directory | Content |
|---|---|
| `Model/` | the code: `Base` (strings, Go maps, Unicode tables), `Proto` (proto.go), `Utils` (utils.go), `Stack` (stack.go), `Path` (path/filepath as used), `Gen` + `GenGo/GenC/GenJava/GenRust/GenTS` (gen*.go), `Monad` (errors, panics, exits), `State` (Options, the outside), `Handlers` (schema.go, xml*.go), `Parser` (parser.go), `Cli` and `Flag` (cmd/xgen/xgen.go) |
| `Spec/` | specifications that do not use the model's helpers: decimal integers and multiplicities, handled tag names, one-declaration-per-name, readers of generated code, core schemas with their tokens and meaning |
| `Lemmas/` | proof infrastructure (strings, paths, maps, relations between runs, invariants of runs) |
| `Props/` | one file per property (or group): theorems, then concrete examples that meet their hypotheses |

Every definition in `Model/` cites the file and lines it stands for, and says what is simplified.

## Trusted base

* **The Lean 4.33.0 kernel**, and the axioms listed per theorem at the end: only `propext`, `Quot.sound` and
  `Classical.choice`. No axiom is added, and no `sorry`, `native_decide` or `bv_decide` is used; examples are checked by kernel
  reduction (`decide`, `decide +kernel`).
* **The faithfulness of the model to the Go code.** There is no mechanical link. It rests on the citations and on
  `Props/Fixture.lean`: the kernel checks that the model, applied to the tokens of the repository's test schema (for C also to its text, C82), gives exactly
  the stored expected outputs for C, Java, Rust and TypeScript, and for Go up to white space (gofmt).
* **`UniLaws`** (a class, hence an explicit hypothesis): six laws of Go's `unicode.ToUpper/ToLower` tables (ASCII as expected, other
  runes never mapped to ASCII except to letters, idempotence) used by C04, C13 and everything that needs the dispatch on capitalised tag names. The ASCII tables satisfy them (`asciiUniLaws`), and so do those of ISO-8859-1 (`latinUniLaws`), so the
  theorems are not vacuous; that Go's full tables satisfy them is assumed.
* **`Spec/Instance.lean`** (C77): which documents are valid against a schema, written from XML Schema Part 1; facets, mixed content, wildcards, substitution groups, fixed and default values are left out.
* **`Spec/Alphabet.lean`**: letters and capitals of Unicode outside of ASCII, taken to be letters of names by all five languages; ranges of the Latin, Greek, Cyrillic and some other scripts, from the Unicode tables.
* **`Spec/Values.lean`** (C78): value spaces, written from XML Schema Part 2 and the language definitions; `int` has 64 bits in Go and 32 in C.
* **`Spec/GoXml.lean`** (C75 and what builds on it): what Go types mean to `encoding/xml`, written from its documentation and source.
  How basic values are read and written is a parameter. That it gives back the document of xml_test.go is checked by the kernel.

## What is modelled, and how

| Code | Model |
|---|---|
| stack.go | all; container/list as a list |
| utils.go | `ToSnakeCase` (the two regexps as rewriting of adjacent runes), `GetFileList`, the table `BuildInTypes`, `getBuildInTypeByLang`, `getBasefromSimpleType`, `getNSPrefix`, `trimNSPrefix`, `MakeFirstUpperCase`, `ToTitle`, `callFuncByName`, `genFieldComment`, `toSortedPairs` |
| utils.go:238-255 | `fetchSchema`, with the server as a parameter (`Model/Fetch.lean`, C106) |
| proto.go | all structures; fields that nothing reads (`Restriction` facets other than `Enum`, …) are left out where stated |
| schema.go, xml*.go | all handlers |
| parser.go | `Parse`, `GetValueType`, dispatch, nested parsers, registries, output |
| gen*.go | all five generators, producing the exact text; for Go the text before gofmt |
| os.Create, f.Write, os.MkdirAll, interrupted or failing (genGo.go:70-94 etc.) | `Model/Faults.lean` (C92, C93) |
| parser.go:100-101 with charset and UTF-8 | `Model/Bytes.lean` (C91) |
| parser.go:100-106 with encoding/xml | `Decoder.Token` in strict mode: names, attributes, namespaces, references, sections, comments, instructions, directives |
| cmd/xgen/xgen.go | all: arguments, flag decisions, main loop, printed texts (`Model/Print.lean`, C95) |
| parser.go:67, 75, 135, 174 with the disk | `Model/Disk.lean`: files written are found by later looks (C84, C85) |

Not modelled:

* Everywhere but in C81, C82 and C91 a file is the list of tokens `Decoder.Token` delivers before its first nil token (C35 treats an
  arbitrary sequence of tokens and errors); C81 and C82 model the decoder on characters (`Model/Xml.lean`, from the source of
  encoding/xml, which is not in the repository; not its line numbers, offsets and error texts), C91 on bytes
  (`Model/Bytes.lean`: UTF-8 with invalid bytes, the change of encoding at a declaration, windows-1252; the other encodings of
  `charset.NewReaderLabel` are a parameter).
* `go/format.Source`, `isValidURL`, `PrepareOutputDir`, `os.Create`: arbitrary functions of their argument (fields of
  `World`); the theorems hold for all of them. C79 models `isValidURL` with net/url. A created file can be written.
* What `flag` and the Go runtime print, and the texts of the errors of the standard library (a parameter in C95). `flag.Parse` and `filepath.Walk` are modelled from their documentation (`Model/Flag.lean`); the directory tree that
  `os.Lstat` and `readDirNames` show is a parameter.
* `http.Client` and what it does with redirects: what `Get` and `Read` give is a parameter (`Model/Fetch.lean`, C106). Nothing calls `fetchSchema` (utils.go:238).
* Files that change during the run, except by the program itself: everywhere but in C84 and C85 a run reads the files as they were at its
  start; `Model/Disk.lean` is the model in which each look sees the disk as it is then, and C84 says when the two agree. Symbolic links are not modelled.
* Strings that are not valid UTF-8: a Go string is a list of code points. (The decoder delivers no others, C91.)
* Integers: `maxOccurs` is compared with 64-bit bounds (`strconv.Atoi` on a 64-bit platform).

Decisions:

* Errors are values, and panics, `os.Exit` and exhausted budgets are explicit outcomes (`Out`: `ok`, `err`, `halt`).
* `Element` pointers can be aliased (twice on the stack, stack and tree), so elements live in an explicit heap; no other
  component pointer is ever aliased.
* Map iteration order is an oracle (`World.pick`), over which all theorems quantify; an entry added during the loop may be
  visited or not, as Go allows.
* The recursion `Parse` → `GetValueType` → `Parse` takes a budget; C22 proves that the budget is never exhausted and that
  larger ones give the same result, so `Parse` is the function without budget.

## The properties

`P` proved, `~` proved in part (with the negation and a witness where the property is false).

| | | What is modelled and how it is proved |
|---|---|---|
| C01 | P | `GoStack` against a list, by induction over the sequence of calls |
| C02 | P | induction over the string; the specification counts colons |
| C03 | P | per rune; idempotence uses `UniLaws` |
| C04 | P | invariants of the two rewriting passes, by induction over the string; the passes together equal a one-pass specification (`Spec/Names`) |
| C05 | P | the table as data, lookup total by evaluation lifted to all strings |
| C06 | P | finite table, decided and lifted; the statement is about every language's field-type generator |
| C07 | P | `getBasefromSimpleType` against "first declaring node", by induction over the tree |
| C08 | P | uniqueness of the sorted permutation; quantifies over every permutation and every correct sort; `same_source`: the whole generated file, in all five languages, is the same for trees that differ in the order in which the members of unions are stored |
| C09 | P | induction over the text; lines are defined by newline characters only |
| C10 | P | list lemmas on suffixes |
| C11 | ~ | False for a single input file (`-i a.xsd -o out` writes `out.go` beside `out`) and for an empty output directory with a rest that begins with `/` (written to the root): `written_outside`. Otherwise proved: `filepath.Join/Clean/Dir` modelled on components; the written path has the cleaned output directory as a prefix of its components; `clean_leadsTo`: cleaning does not change where a path leads (walked component by component from any working directory), `written_below_partial`: the written file lies below the place the output directory leads to |
| C12 | ~ | injectivity of the output path, as text and as the place reached from any working directory; false if an input already has the extension (`collision`) |
| C13 | P | character invariants of the name generator, plus what happens for names with a leading underscore; letters outside of ASCII included (`Spec/Alphabet.lean`), where first letters without a capital are the exception (`no_capital`) |
| C14 | ~ | invariant of the counter; false for A, A, A2 (`collision`); `names_eq` gives the exact names |
| C15 | ~ | generator loop against `Decl.declared`; proved for four languages; TypeScript enumerations are declared twice (`ts_twice`) |
| C16 | ~ | flags of the Go generator; no unused import; missing imports exist (`time_missing`, `xml_missing`), exact conditions proved |
| C17 | P | a reader of Go structs, written independently, applied to the generated text, also inside the file; the expected names and types are those of the independent `Spec/Names` |
| C18 | ~ | at each element tag in any document, multiplicity = own or that of an enclosing choice, the enclosing choices being read off the tags; false for the finished tree (`overwritten`); for core schemas the finished tree is C40 |
| C19 | ~ | `mergeElement` over all declarations; false when a name was first declared with another type (`not_merged`) |
| C20 | P | invariant over every run |
| C21 | P | handler level and every attribute in the tree |
| C22 | P | measure: unregistered files; budget irrelevance; the include loop is bounded by the number of XML attributes |
| C23 | P | relation between start and end of an extract-mode run |
| C24 | P | unfolding of `Parse` |
| C25 | P | invariant on the ghost log of parses |
| C26 | P | preorder on the shared maps kept by every step, lifted to `Parse` by induction on the budget |
| C27, C28 | P | evaluation of `GetValueType` |
| C29 | P | evaluation of `Parse` |
| C30 | P | `strconv.Atoi` against an independent grammar of decimal integers; iff for rejection |
| C31 | P | states compared after deletion of all documentation |
| C32 | P | bisimulation of runs, for one document and for all documents of a file system at once |
| C33 | P | invariant on document trees; the exact panic condition of a step; every panic has one of the two causes |
| C34 | ~ | false (`order_dependent`, `order_matters`); proved with at most one include location |
| C35 | P | the loop over an arbitrary sequence of (token, error) answers |
| C36 | P | keyword table |
| C37 | ~ | readers of C17/C48; false for TypeScript built-ins and C arrays, whose behaviour is characterised |
| C38, C39 | P | evaluation; induction over the list of files |
| C40 | P | abstract syntax of core schemas, its tokens and its meaning, both independent of the model; simulation of the parser run by structural induction; lifted to documents with white space, comments and transparent tags, and with arbitrary text up to documentation (C57) |
| C41, C42 | ~ | finite table; false for Java `anyURI`, and for all `xml:` rows |
| C43 | P | the generators with an arbitrary counter left by earlier runs |
| C44 | ~ | interleavings of two generators at the granularity of components; false (`interferes`) |
| C45 | P | invariant of runs |
| C46 | ~ | false (`residue`, `swallowed`); proved for all core declarations except those with elements that have an anonymous restriction (which leave their pointer behind, C68), and idle states ignore text and transparent tags |
| C47 | P | per language, all inputs |
| C48 | P | readers for C, Java, Rust and TypeScript written independently; the expected names and types are those of the independent `Spec/Names` |
| C49 | ~ | reader of TypeScript enums; false for values with quotes (`unreadable`) |
| C50 | ~ | package clause of every written file; lost on imports (`lost_on_import`) |
| C51 | ~ | exact behaviour of the second lookup; witness schema `captured_schema` |
| C52 | P | evaluation of `GenGo` for an arbitrary formatter |
| C53 | ~ | `Spec/Names` and the declared names of `Spec/Decl`; false when two components share a target name (witness), proved for the first one |
| C54 | ~ | the readers of C17 and C48 on the texts of groups and attribute groups, compared with those of the complex type with the same members; four deviations with witnesses |
| C55 | ~ | readers of synonyms (`type`, `typedef`, `export type`) and of one-member classes and structs; union members through C07 and C08; two deviations with witnesses |
| C56 | ~ | readers of declaration lines on the whole file; every other line is shown to start with a tab, brace, annotation or comment (`Lemmas/Calm`); TypeScript: enumerated lists are the first of their names |
| C57 | P | logical relation (equal up to documentation) respected by every handler and by type resolution; induction over the document |
| C58 | ~ | the line readers of C17, C48, C49, C54, C55 applied to the pieces of the whole file between head lines (`Lemmas/Starts`); TypeScript as in C56 and C49 |
| C59 | ~ | composition of C40, C57, C24 and C58; spelling of XML attributes carried through the translation; results do not depend on documentation |
| C60 | P | grammar of arguments (`Item`, `Stops`, `Wrong`); every argument list has such a reading, and `flagParse` follows it; `positional_input_ignored` |
| C61 | P | places of a directory tree; `walkBelow` visits them in lexicographic order; composition of C60, C38, C39, C29, C24 and C59; deviations `unclean_elsewhere`, `hidden_clash`, `linked_directory` |
| C62 | P | project of files (imports and includes) with their translations as a fixed point; invariant of the shared maps over nested parses (`Inv`); text via `worded`, the tree of the run with an effect-free resolver; `Lemmas/Vals` tracks which references a run can ask for, `Lemmas/Asks` which it certainly asks for; deviations `subdirectory_not_written`, `prefixes_leak`, `import_order`, `unused_import` |
| C63 | P | a project of C62 without imports; loop over the include map for any choice of the next entry (`C62.includes_run`); witnesses `disagreement`, `missing_include`, `forward_reference` |
| C64 | P | relational proof over two worlds: C57 for a relation between the shared states, carried through `GetValueType`, the include loop, nested `Parse` and the generators; composed with C32 |
| C65 | ~ | C62 gives the trees up to documentation, `trees_legible` (induction along the ranks) that their types can be read back, C58 what each file says; TypeScript without enumeration values that C49 excludes |
| C66 | ~ | the maps of name spaces keep the import through all nested parses (`Kept`), no declaration of the name arises (`Vals`), so the handler of the reference fails; an unreadable file and an import of an imported file go unreported (witnesses) |
| C67 | ~ | `decl_doc`: the run of every kind of declaration with text inside its first tag; `treeDoc` is the tree with documentation; `comment` is specified by lines, independently of the replacer; `file_partial` goes from the document to the written file through C15.files and C24; four witnesses show where documentation is lost or misplaced |
| C68 | ~ | elements with anonymous restrictions are part of the core fragment: `Core.Mode` says what they leave on the element and simple type stacks, `Core.Safe` which declarations are not affected, `Core.Apart` that names do not collide; `top_partial` and `member_partial` give type and place; the type is looked up three times, which changes nothing except in Java (`builtin_again`, `java_anyURI`); eight further witnesses for the other places and kinds |
| C69 | ~ | `Shuffled`/`Files` relate documents and file systems whose tags have permuted attributes; every loop over attributes is shown to commute on tidy tags (`Comm`, `forAttrs_perm`), and a relation between whole runs (`Resp`, `Twins`) carries this through nested parses; the prefixes of the schema tag may be entered in another order, hence `Same` compares their values; witnesses `import_order`, `ref_order`, `twice` show that the exception and the hypotheses are needed |
| C70 | ~ | `Early` says what must stand before what, `Orderly` what is demanded of the declarations in any order; the names with types (`build`) come to the same whatever the order (`same_types`), references resolved early or late mean the same to the generators (`weak`, `inline`, `firm`), hence the components agree up to types the generators resolve anyway (`nodes_norm`), and the lists of declarations are permutations of each other (`declarations_perm`); files via C59; witnesses for every kind of use before declaration, equal names and equal targets |
| C71 | ~ | `Bound` says that the references of a schema have targets of the right kind; by induction over the declarations every type in the tree is a target type or the name of a component that declares a type (`Linked`, `linked`); what the generators print for it is predefined, wrapped or among the names declared in the file (`Known`, `Closed`; names via C56, declarations via C58), files via C59; Rust needs that the first component with the name of a type is a type (`Led`); witnesses for `interface`, `enum`, attribute groups in Java and elements named like types in Rust |
| C72 | ~ | `Ordered` says that references go to earlier declarations; by induction over the declarations and the nesting of anonymous types every component of the tree only needs earlier ones (`InOrder`, `ordered`), also after resolving names once more (`InOrder.means`); what comes before a declared component has been declared or something of its name (`firsts_split`), so the types of a declaration are known from what the file says before it (`C.Sorted`, declarations via C58, types via C71); witnesses for forward references, recursive types and elements named like types |
| C73 | ~ | `Sized` is the least set of types that contains predefined types not declared anew, references to whatever, and what consists of types in the set; in Go every type that a declaration mentions is predefined, a pointer or a slice (`Go.one`, for all trees) and no declared name looks like one (`Go.apart`); in C and Rust declarations with different names, each made of earlier ones, are in the set (`sorted_finite`; order via C72); types in a cycle are not (`endless`); witnesses for recursive types and for `_int` in Go |
| C74 | ~ | `key` drops punctuation and case (outside of ASCII: up to `unicode.ToLower(unicode.ToUpper(c))`); every name translation keeps the key (`key_plain`, `key_strict`, `key_snake`, …), so members with different keys have different names (`Go.one`, `C.one`, …, for all trees, read back via C58); in a schema `said` lists the names with what they are used for, and things with one key must be the same thing (`Clear`); the merging of elements and groups then leaves every key once (`complex_fine`); witnesses for each proviso, among them elements that differ in case only, and in Rust an attribute `value` of a simple content |
| C75 | P | Spec/GoXml.lean says what a Go file means to `encoding/xml` (types, tags, embedded structs, `Unmarshal`, `Marshal`); the file of a tree is read back via C58, `typeInfo_eq` gives what `encoding/xml` knows about a complex type with the types it extends, and `fits_res` (induction on the document) shows for every field that what is read is written again (`attr_case`, `elem_case`, `text_case`), whatever the rest of the document; `Fits` and `Kept` are stated on documents and trees only, with a checker for examples; the document of xml_test.go is evaluated through the file for base64.xsd; witnesses for groups, unions, optional elements, lower-case type names, … |
| C76 | ~ | `uses` reads the classes off a line (annotations inside and outside of classes, list types and `QName` in members), `imports` the import lines; every line of every declaration uses only classes of the fixed imports or `QName` (`text_fine`); false for `anyURI`, whose target type `QName` is not imported |
| C77 | ~ | Spec/Instance.lean says which documents are valid (languages of element names, attributes, types; sequences included, though the parser ignores them); `tokens_skeleton` links such schemas to the core language, `shape_complexOf` and `view_nodes` give the complex types in the tree (C40, C70), `fits_of_valid` shows by induction on validity that the document fits the tree (C75), `lang_count` bounds how often an element occurs; false for repeated sequences and repeated declarations, with witnesses |
| C78 | ~ | `Spec/Values.lean` gives the values of the built-in types of XML Schema and of the target languages; a checker for inclusion and one for loss are proved sound and evaluated on the whole table; `unfit` lists the types that are too narrow |
| C79 | P | `isValidURL` with the parts of net/url it reaches (`Model/Url.lean`) against the form of a URL |
| C80 | ~ | `Accepted` lists the checks on the text of a file, read back by `declsOf` and `imports`; combines C56, C71, C73, C74 with the two import flags of C16 |
| C81 | P | Spec/XmlText.lean: documents as trees that carry their layout, `written` (the text) and `tokens` (the meaning) by recursion; `reads` (induction on the tree) shows that the decoder gets from the text to the tokens, with a lemma per construct (`nsname_of`, `chars_of`, `attrs_of`, `comment_ok`, `cdata_of`, `directive_of`); the bound on steps is none (`decode_enough`) |
| C82 | P | `token_inv`: a token does not depend on the text behind it, and lessens what is left; `token_moves`: the stack of the decoder is the list of open elements; with C64 and C59 |
| C83 | ~ | `Respelled`: the same declarations after removing the prefixes; the translation of C40 depends on local parts only (`nodes_same`); witnesses for `ref` and for two files with one table of prefixes |
| C84 | P | `Model/Disk.lean` repeats the recursion with the disk looked at anew at each `os.Stat`/`os.Open`; invariant on locations and files written; comparison with `Parse` up to budgets (C22); places of paths as in C11 |
| C85 | ~ | `Parse` depends only on the entries at the paths looked at (comparison of both disks with their union); files written elsewhere do not show in the list of inputs (`inside_put`: the tree of directories with a file put into it); witness: output directory = input directory |
| C86 | ~ | C75's simulation records how the written document comes about (`Wrote`): fields in order, zeros added; `Lang` closed under regrouping by declaration and under adding allowed elements (`regroup`); decision procedure for the side conditions; two witnesses (extension, choice) |
| C87 | P | C75's simulation also shows that what is written fits the type without slack and is in the order of the fields (`second_round`), with an account of embedded structs that are never allocated (`Untouched`, `LacksElem`); the exact round trip of C75 then applies; a witness that the law about zero values is needed |
| C88 | ~ | lookups skip components of other names (`get_insert`), so the text of each old component is the same in both trees (`lang_text`, all five languages); `named_insert`: the numbered declarations are the old ones with a block inserted; Go's import flags only grow; for documents, the trees of C67 and the absence of dangling references (C71) give the conditions; witnesses that each is needed |
| C89 | ~ | `Same a b`: texts that may replace each other in any context without effect on the lines of code; comments are such (C09), hence the text of each declaration, the file, and, through C64 restricted to trees without line feeds in names (`reworded_on`, `trees_flat` from Lemmas/Origin), the whole command; witness that line feeds in names must be excluded |
| C90 | P | Lemmas/Origin: a Hoare-style invariant over heap, stacks, tree and shared maps for arbitrary predicates on names, references and values, kept by every handler, by `GetValueType` with nested parsers and by `Parse`, in every outcome; instantiated with what occurs in the files of the project; with well-spelled attributes the trees are `Legible` and C58 applies |
| C91 | P | bytes are split into characters as `utf8.DecodeRune` does; UTF-8 (compared with Lean's own) is read back exactly; what is left behind a token is a suffix, so that positions in characters and bytes correspond; the label of a declaration is computed and the rest handed to the encoding; C82 for the tokens of arbitrary bytes |
| C92 | ~ | an interrupted run has done a beginning of the list of files written, the last perhaps in part, or made directories for the next (`Model/Faults.lean`); these are at places C84 keeps apart from what is looked at, so C85 applies to the run that follows, and its writes cover what was left |
| C93 | ~ | C84's comparison of a run with one that sees the disk otherwise, for an arbitrary view of the disk that is right about the paths looked at, and for writes of which only part is stored |
| C94 | P | potential: files read so far plus, for files not registered yet, what they may cost; each handler looks up at most so many names (`Lemmas/Cost.lean`), each lookup costs at most the number of includes plus one, registering a file pays for its own lookups |
| C95 | P | the texts printed are a second interpretation of `main` (`Model/Print.lean`); the errors a computation can return are followed through all handlers (`Lemmas/Blame.lean`): only name resolution and maxOccurs can fail, and name resolution drops the errors of the parsers it starts |
| C96 | ~ | `Spec/GoSyntax.lean` is a lexer (with automatic semicolons, comments, raw strings) and a parser for the part of the Go grammar that type declarations need, written from the language specification; `file` shows by composition of texts that it reads `goSource` as the declarations of C58; `document_partial` lifts this to documents, with the documentation followed to the text of the file (`Lemmas/Docs.lean`); `Props/National.lean` has a French schema as example, for C99 to C102 as well |
| C97 | P | an invariant over all handlers (`Lemmas/Docs.lean`): every documentation in the stacks, the heap and the tree is empty or a trimmed text of the file |
| C98 | ~ | `Spec/Comments.lean` is a reader of texts by the lexical rules of C, Java, Rust and TypeScript (trigraphs, text blocks, nested comments, regular expressions left out); files with and without documentation differ in comments only (`C89.Alike`), a comment with harmless documentation leaves the reader where one without does, and the code around it never is in a string or block comment at the end of a line (`Goes`); `command_partial` lifts this to all files the command writes, by the origin of names (C90) and of documentation (C97) |
| C99 | ~ | `Spec/Syntax.lean` has lexers and parsers for the files of types in C, Java, Rust and TypeScript, on top of the reader of comments of C98 (only less is accepted than by the languages: names of ASCII and the letters in `Spec/Alphabet.lean`, strings without escapes, the forms of types and declarations needed); `file` shows for all trees with fair names that the Rust file parses to the header and the structs of `C58.Rust.members`; `document_partial` lifts this to documents |
| C100 | ~ | the Java parser of `Spec/Syntax.lean`; `file` shows for all trees with fair names and all dotted package names that the Java file parses to the package, the nine imports and the classes of `C58.Java.members` with their annotations and base classes; `document_partial` lifts this to documents |
| C101 | ~ | the TypeScript parser of `Spec/Syntax.lean`; `file` shows for all trees with fair names and enumeration values that the TypeScript file parses to the types, classes and enumerations of `C58.TS.members`; `document_partial` lifts this to documents |
| C102 | ~ | the C parser of `Spec/Syntax.lean`; `file` shows for all trees with fair names and types that the C file parses to the type definitions of `C58.C.members`; `document_partial` lifts this to documents |
| C103 | ~ | `project_partial` joins C62 (what is written for a project), the documentation invariant of `Lemmas/Docs.lean` and the `file` theorems of C96 and C99 to C102, for all five languages |
| C104 | ~ | `project_partial` extends C71 to projects: `trees_ok` shows by induction along the ranks of the files (C62) that all types in the trees are target types or declared in the tree of a written file, and the per-language lemmas of C71 carry this over to the texts; `included_dangling` is a counterexample for included complex types |
| C105 | ~ | `project_partial`: the trees of a project (C62) satisfy `Fit` (`fit`), and the files of such trees are a package (`package`), with the lemmas of C71, C73, C74 and C80 for single declarations and C104 for references between files; `packages_differ` and `declared_twice` are counterexamples |
| C106 | ~ | `fetched` and `reported` say exactly when there is a body and when an error, `body_partial` for status 200, `closed` that every body is opened, read and closed in order; `not_found` is a counterexample to the last sentence |
| C107 | ~ | `command_partial` puts C60 (arguments), C91 (bytes), C81 (XML), C62/C65 (projects), C103 (grammars) and C84 (the disk meanwhile) together; the formatter is a parameter that has to keep the package, the declarations and the set of imports |
| C108 | ~ | `directory_partial`: induction over the list of inputs (`loop`), where each file is the main schema of a project (`one`, as in C107) that starts with empty maps; places as in C61 |
| C109 | ✓ | `same_code`: simulation (`Lemmas/Move.lean`) of two runs whose states agree but for paths, by the closure of handlers under relations (`Lemmas/Rel.lean`); locations are followed component by component (`reach`) and shown to be what `Clean`, `Join` and `Dir` compute; the relation is symmetric, so neither disk need be the larger; `leaves`: witness for the condition |
| C110 | ~ | `outline_tree`: without types, the tree of a schema (C40) is that computed with no types at all, by induction on contents, merging of elements being the only place where types count; `c`, `java`, `rust`, `go`, `ts_partial`: the declarations read back (C59) are aligned with it; `disagree`: witness for the condition.  Missing: see C40, C49 |
| C111 | ~ | `two_languages_partial`: C65 and C110 composed; which names are built-in does not depend on the language, hence neither does which files are reached; `accepted_by_language`, `files_by_language`: the same schema, evaluated in all five languages, is rejected or accepted, or gives different sets of files |
| C112 | P | `same_end`: a simulation of two runs of the token loop; the relation `sk` forgets types and the elements of complex types, each update of the parser state preserves it (`Blind`), each handler preserves it with the same outcome (`Sim`), and lookups without imports cannot fail (C40 `answers`); examples with malformed documents that are accepted, rejected, and panic in all languages; `elements_differ`, `imports_matter`: why elements and imports are excepted |
| C113 | P | `bounded`: a potential (`load`) over all stacks and the tree; each update adds at most the cost of its tag (`Adds`), hence each handler (`Costs`) and the token loop; an end tag of a simple type appends only once because the first of its two branches clears the current element; examples: stray end tags reach the bound |
| C114 | P | `same_command`: induction over the files with C112 `same_end`, which allows the two runs to have different registries of written files; `same_arguments`: two argument lists that differ in the word after one `-l` give flags that agree or differ in the language only (`read_lang`), also when the `-l` is the value of another flag; example: a directory whose second document is rejected (`two_alike`), and why imports are excepted (`imports_matter`) |
| C115 | P | `same_files`: a parse writes one file if it succeeds on a document and otherwise none (`wrote`: the token loop leaves the registries alone by the simulation of C112, compared with itself); two runs stop at the same file (C114 `one`); example: of two documents the first is written, for each language (`two_files`) |

Later properties, found while modelling, are listed with the others in `properties.jsonl`.

## Findings in the code

Beyond the witnesses above, seen while modelling (not all are theorems):

* Names of elements and Rust/Go attributes, and C typedefs, are not made unique.
* A list of a user type gives `[]**Foo` in Go; all members of a union are renamed to the union in Rust. `RustGroup` takes the plurality of the group, not of the element.
  `RustAttributeGroup` makes required attributes `Vec`. `JavaAttributeGroup` puts the suffix `Attr` on the type.
* Lower-case `-l java` is rejected by the command, but with the library the language `java` generates Java with Go types, and an
  unknown language silently nothing.
* Prefix bindings of included or imported documents overwrite those of the including one.
* Imported schemas ignore `Package` and `InputDir` and may be written outside `OutputDir`.
* A single input file is written beside the output directory (`outdir` + `""` + extension).
* An anonymous `complexType` with no open element, and an element named `charData`, panic.
* Elements that stay on the stack lose or leak simple types, and attract documentation of others.
* `EndSimpleType` may pop a complex type; a group with an inline complex type is never popped.
* `minOccurs`, `maxOccurs` of sequences and most facets are ignored; a group reference with `maxOccurs="1"` is plural.
* Type references also resolve to elements and attributes of that name.
* Attribute group references inside attribute groups become separate nodes.
* A bare carriage return ends a comment line in Java, U+2028 in TypeScript, but not in `genFieldComment`.

## Axioms

Printed by `#print axioms` for the theorems of `MANIFEST.json` (prefix `Xgen.` omitted).

* no axioms: C03.title_cons, C03.title_nil, C03.title_length, C106.not_found, C13.underscore_names, C13.no_capital, C14.collision, C37.ts_lost, C38.exclusive, C47.neutral, C56.firsts_eq

* `propext`: C02.one_colon, C03.title_idem, C106.closed, C11.single_file_is_beside, C11.escapes_without_outputDir, C110.declarations_length, C12.collision, C14.first_use, C15.ts_twice, C15.list_again, Decl.declared_sublist, C16.source, C16.time_missing, C16.xml_missing, C19.not_merged, C21.final, C26.schema_binds, C31.structure_kept, C31.tree_kept, C31.space, C31.total, C36.field_not_keyword, C36.not_keyword_unchanged, C37.ts_same_text, C37.c_same_text, C37.c_lost, C38.decisions, C41.twice_partial, C41.java_anyURI, C42.unreachable, C42.no_reference_reaches, C43.independent, C44.interferes, C46.idle_text, C47.types_nonempty, C49.unreadable, C49.generated, C50.own_file_partial, C51.captured, C52.raw_is_source, C53.confused, C54.Go.like_complex_partial, C54.TS.like_complex, C56.finals_eq, C61.unclean_elsewhere, C61.hidden_clash, C68.restricts_declared, C68.builtin_again, C78.Narrow.not_adequate, C85.look_again, C89.torn_code, C89.marked, C91.utf16, C91.undeclared, C91.commented, C91.control_changed, C91.changed_again, C92.whole_or_torn, C95.ambiguous, C96.byte_order_mark, C98.swallowed, C98.escaped_code, C98.untame

* `propext`, `Quot.sound`: C02.other_colons, C02.forms, C02.trim_idem, C03.title_get, C04.no_upper, C05.getBuildInTypeByLang_total, C05.found_iff, C05.unknown_lang, C06.builtin_rendered_verbatim, C07.resolves_to_first, C07.resolves_first, C07.resolves_none, C07.irrelevant, C08.order_independent, C08.strictly_ordered, C08.same_source, C09.comment_lines, C10.ends_with, C10.unchanged, C10.appended, C10.idem, C106.body_partial, C106.fetched, C106.reported, C11.output_inside_partial, C11.written_inside_partial, C11.written_below_partial, C11.written_outside, C11.clean_leadsTo, C11.dir_leadsTo, C11.join_leadsTo, C111.reached_same, C111.needs_same, C112.same_end, C112.accepted, C113.bounded, C113.few_components, C114.same_command, C114.same_arguments, C115.same_files, C12.different_files_partial, C12.different_places_partial, C15.first_of_each_name, Decl.declared_complete, Decl.declared_once, Decl.declared_first, C16.used_in_code, C18.placed, C20.distinct, C20.present, C20.kept, C21.optional, C23.extract_silent, C25.generated_once, C26.include_adds, C26.parse_mono, C27.builtin_local, C28.unknown_is_local_name, C31.freeze_kept, C32.parseOpen_strip, C34.order_irrelevant_partial, C35.loop_eq, C35.defect_invisible, C40.answers, C40.typeRef_stable, C46.idle_blind, C49.read_enum_partial, C49.collected, C51.kept_partial, C51.exact, C54.Go.untagged, C54.C.like_complex_partial, C54.C.unsplit, C54.Java.like_complex, C54.Java.attrs_like_complex_partial, C54.Java.misplaced, C54.Rust.like_complex_partial, C54.Rust.single, C54.Rust.attrs_like_complex_partial, C54.Rust.vectors, C55.memberMeaning_eq, C55.Go.pointer_to_pointer, C55.Rust.misnamed, C57.text_inert, C57.run_noText, C57.step_same, C57.gvtOf_same, C60.reads, C60.rejects, C60.run, C61.mem_places, C61.in_order, C61.walk_places, C61.mirrored, C11.beside_leadsTo, C11.beside_leadsTo, C64.parse_twins, C64.run_alike, C66.getValueType_missing, C66.swallowed, C11.beside_leadsTo, C67.text_heads, C68.restricts_builtin, C73.sorted_finite, C75.lower_case_type, C75.lower_case_base, C75.groups_lost, C75.unions_lost, C75.optional_changed, C75.element_renamed, C75.bytes_lost, C75.number_lists_fail, C75.extension_reordered, C75.untyped_attribute, C78.narrow, C78.sample_legal, C79.url_absolute, C79.path_not_url, C79.import_kept, C81.decode_enough, C84.others_kept, C84.apart_by_names, C84.apart_checked, C90.legible, C92.restored, C92.one_torn, C93.stored_all

* `propext`, `Classical.choice`, `Quot.sound`: C01.stack_is_lifo, C04.no_hyphen, C04.letters_kept, C04.snake_idem, Names.snake_eq, C89.trees_partial, C100.file, C100.document_partial, C100.bad_names, C100.no_type, C100.list_attr, C101.file, C101.document_partial, C101.bad_values, C101.bad_bases, C101.bad_names, C102.file, C102.document_partial, C102.bad_arrays, C102.bad_structures, C102.bad_empty, C102.bad_names, C103.project_partial, C104.project_partial, C104.included_dangling, C105.project_partial, C105.packages_differ, C105.declared_twice, C107.command_partial, C108.directory_partial, C109.same_code, C109.leaves, C110.outline_tree, C110.same_outline, C110.c, C110.java, C110.rust, C110.go, C110.ts_partial, C110.disagree, C111.project_partial, C111.two_languages_partial, C111.trees_outline, C111.accepted_by_language, C111.files_by_language, C112.elements_differ, C112.imports_matter, C13.exported, C14.no_collision_partial, C14.names_eq, C15.go, C15.c, C15.java, C15.rust, C15.ts_partial, C16.time_flag, C16.xml_flag, C16.time_used, C16.xml_used, C16.time_partial, C16.xml_partial, C17.read_complex, C17.in_file, C18.declared_partial, C18.run_agree, C18.overwritten, C19.merged_partial, C19.merge_iff, C19.kept, C19.present, C22.terminates, C22.budget_irrelevant, C22.Parse_eq, C22.Parse_unique, C22.loop_budget_irrelevant, C24.success, C29.not_a_file, C30.accepted, C30.rejected, C30.rejected_iff, C30.choice_accepted, C30.choice_rejected, Occurs.atoi_iff, C32.transparent_world, C32.insertion, C33.no_panic, C33.panic_cause, C33.step_panic_iff, C34.order_dependent, C34.order_matters, C35.parse_eq_loop, C37.go, C37.java, C37.rust, C37.ts_partial, C37.c_partial, C39.command, C39.main_loop, C40.schema_tree, C40.open_tree, C40.extracted, C40.documented_tree, C44.independent_partial, C45.consistent, C45.run_inv, C46.no_residue_partial, C46.residue, C46.swallowed, C48.C.read_complex, C48.C.in_file, C48.Java.read_complex, C48.Java.in_file, C48.Rust.read_complex, C48.Rust.in_file, C48.TS.read_complex, C48.TS.in_file, C50.lost_on_import, C51.captured_schema, C52.formatting, C15.files, C53.go_partial, C53.c_partial, C53.java_partial, C53.ts_partial, C53.rust_partial, C15.files, C54.Go.read_group, C54.Go.read_attrGroup, C54.C.read_group, C54.C.read_attrGroup, C54.TS.read_group, C54.TS.read_attrGroup, C54.Java.read_group, C54.Java.read_attrGroup, C54.Rust.read_group, C54.Rust.read_attrGroup, C15.files, C55.Go.simple, C55.Go.global_element, C55.Go.global_attribute, C55.Go.union, C55.Go.list_twice, C55.Go.list_partial, C55.C.simple, C55.C.global_element, C55.C.global_attribute, C55.C.type_idem, C55.C.list, C55.C.union, C55.TS.simple, C55.TS.global_element, C55.TS.global_attribute, C55.TS.list, C55.TS.union, C55.Java.simple, C55.Java.list, C55.Java.global_element, C55.Java.global_attribute, C55.Java.union, C55.Rust.simple, C55.Rust.list, C55.Rust.global_element, C55.Rust.global_attribute, C55.Rust.union, C56.Go.file_names, C56.C.file_names, C56.Java.file_names, C56.Rust.file_names, C56.TS.file_names_partial, C56.C.finals_eq, C58.Go.file, C58.C.file, C58.Java.file, C58.Rust.file, C58.TS.file_partial, C59.go, C59.c, C59.java, C59.rust, C59.ts_partial, C59.covered, C59.tree_legible, C60.line, C60.positional_input_ignored, C61.directory, C61.linked_directory, C62.translated, C62.written, C62.answers, C62.subdirectory_not_written, C62.prefixes_leak, C62.import_order, C62.unused_import, C63.translated, C63.disagreement, C63.missing_include, C63.forward_reference, C64.reworded, C64.reworded_on, C64.formatter_matters, C65.generated, C65.generated_partial, C65.declares_all, C65.trees_legible, C66.fails_partial, C66.unreadable, C66.nested, C67.tree_partial, C67.comment_partial, C67.file_partial, C67.group_lost, C67.anonymous_lost, C67.member_replaces, C67.inner_replaces, C68.top_partial, C68.member_partial, C68.no_facets, C68.lists_and_unions, C68.type_cut_short, C68.group_lost, C68.outer_lost, C68.later_lost, C68.values_leak, C68.element_twice, C68.java_anyURI, C69.order_partial, C69.import_order, C69.ref_order, C69.twice, C70.go_partial, C70.c_partial, C70.java_partial, C70.rust_partial, C70.ts_partial, C70.chain, C70.stale, C70.extension_late, C70.union_late, C70.same_name, C70.numbers, C71.go_partial, C71.c_partial, C71.java_partial, C71.rust_partial, C71.ts_partial, C71.linked, C71.go_interface, C71.go_underscore, C71.c_enum, C71.java_attr, C71.rust_element, C72.c_partial, C72.ordered, C72.C.file, C72.forward, C72.recursive, C72.shadowed, C73.go_partial, C73.c_partial, C73.rust_partial, C73.c_recursive, C73.rust_recursive, C73.go_hides, C74.Go.file, C74.C.file, C74.Java.file, C74.Rust.file, C74.TS.file_partial, C74.go_partial, C74.c_partial, C74.java_partial, C74.rust_partial, C74.ts_partial, C74.case_collides, C74.punctuation_collides, C74.attr_collides, C74.group_collides, C74.base_collides, C74.rust_collides, C75.round_trip, C75.typeInfo_eq, C75.fits_res, C75.fixture_kept, C76.file_partial, C76.java_partial, C76.qname_missing, C76.example_used, C77.valid_kept_partial, C77.suitable, C77.document, C77.exact, C77.bill_valid, C77.sequence_lost, C77.element_lost, C77.not_said, C78.adequate_partial, C78.byte_unsigned, C79.url_ordinary, C79.import_skipped, C79.places, C79.remote_reference, C79.url_parts, C80.go_partial, C80.accepted, C80.imports_used, C80.imports_exact, C80.imports_document, C80.time_missing, C80.xml_missing, C80.chain_embedded, C81.decode_written, C81.fixture_read, C82.nested, C82.named, C82.characters, C82.cut, C82.relaid, C82.relaid_written, C82.document, C82.fixture_written, C82.cut_written, C83.same_tree_partial, C83.same_up_to_documentation_partial, C83.ref_not, C83.shared_prefixes_not, C84.as_at_the_start, C84.reads_kept, C84.not_apart, C84.directory_found, C85.again_listed_partial, C85.again_partial, C85.depends_on_reads, C85.in_place_destroys, C86.written_valid_partial, C86.regular_of_check, C86.extension_invalid, C86.choice_invalid, C87.settled, C87.second_round, C87.laws_needed, C88.inserted_partial, C88.appended_partial, C88.captured, C88.hidden, C88.renumbered, C89.trees_partial, C89.command_partial, C90.command, C90.parsed, C90.c, C90.rust, C90.java, C90.go, C90.ts_partial, C90.unspelled, C91.same, C91.stored_read, C91.utf8_exact, C91.utf8_bare, C91.marked, C91.any, C91.unknown, C91.project, C91.parse_same, C91.command_same, C91.utf16_written, C92.reads_intact, C92.restart_partial, C92.old_lost, C92.in_place_restart, C93.elsewhere, C93.unnoticed, C93.full_disk, C94.parse_reads, C94.command_reads, C94.read_again, C95.reasons, C95.message, C95.done_iff, C95.silent, C96.file, C96.fair, C96.document_partial, C96.formatted_partial, C96.bad_names, C96.keyword, C96.no_items, C97.own_text, C97.none_made, C98.command_partial, C98.trees_partial, C98.confined_partial, C98.lost, C99.file, C99.document_partial, C99.bad_names, C99.keyword, C99.vector_base

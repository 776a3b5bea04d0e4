{
 "claims": [
  {
   "property": "C01",
   "status": "proved",
   "theorems": [
    "Xgen.C01.stack_is_lifo"
   ],
   "note": ""
  },
  {
   "property": "C02",
   "status": "proved",
   "theorems": [
    "Xgen.C02.one_colon",
    "Xgen.C02.other_colons",
    "Xgen.C02.forms",
    "Xgen.C02.trim_idem"
   ],
   "note": ""
  },
  {
   "property": "C03",
   "status": "proved",
   "theorems": [
    "Xgen.C03.title_cons",
    "Xgen.C03.title_nil",
    "Xgen.C03.title_get",
    "Xgen.C03.title_length",
    "Xgen.C03.title_idem"
   ],
   "note": ""
  },
  {
   "property": "C04",
   "status": "proved",
   "theorems": [
    "Xgen.C04.no_hyphen",
    "Xgen.C04.no_upper",
    "Xgen.C04.letters_kept",
    "Xgen.C04.snake_idem",
    "Xgen.Names.snake_eq"
   ],
   "note": "uses the assumed laws UniLaws of Go's case tables"
  },
  {
   "property": "C05",
   "status": "proved",
   "theorems": [
    "Xgen.C05.getBuildInTypeByLang_total",
    "Xgen.C05.found_iff",
    "Xgen.C05.unknown_lang"
   ],
   "note": ""
  },
  {
   "property": "C06",
   "status": "proved",
   "theorems": [
    "Xgen.C06.builtin_rendered_verbatim"
   ],
   "note": ""
  },
  {
   "property": "C07",
   "status": "proved",
   "theorems": [
    "Xgen.C07.resolves_to_first",
    "Xgen.C07.resolves_first",
    "Xgen.C07.resolves_none",
    "Xgen.C07.irrelevant"
   ],
   "note": ""
  },
  {
   "property": "C08",
   "status": "proved",
   "theorems": [
    "Xgen.C08.order_independent",
    "Xgen.C08.strictly_ordered",
    "Xgen.C08.same_source"
   ],
   "note": ""
  },
  {
   "property": "C09",
   "status": "proved",
   "theorems": [
    "Xgen.C09.comment_lines",
    "Xgen.C89.trees_partial"
   ],
   "note": "beside the lines of a comment (comment_lines): the code of a file does not depend on documentation at all, if names have no line feeds (C89)"
  },
  {
   "property": "C10",
   "status": "proved",
   "theorems": [
    "Xgen.C10.ends_with",
    "Xgen.C10.unchanged",
    "Xgen.C10.appended",
    "Xgen.C10.idem"
   ],
   "note": ""
  },
  {
   "property": "C100",
   "status": "partial",
   "theorems": [
    "Xgen.C100.file",
    "Xgen.C100.document_partial",
    "Xgen.C100.bad_names",
    "Xgen.C100.no_type",
    "Xgen.C100.list_attr"
   ],
   "note": "names with letters outside of the scripts in Spec/Alphabet.lean, or that start with a letter without a capital, are missing; in general false: the name _, attributes without a type, unions without members, and list-typed attributes in attribute groups give texts that are not Java (witnesses), and documentation can leave comments (C98)"
  },
  {
   "property": "C101",
   "status": "partial",
   "theorems": [
    "Xgen.C101.file",
    "Xgen.C101.document_partial",
    "Xgen.C101.bad_values",
    "Xgen.C101.bad_bases",
    "Xgen.C101.bad_names"
   ],
   "note": "names with letters outside of the scripts in Spec/Alphabet.lean, or that start with a letter without a capital, are missing; in general false: enumeration values that are no words or no plain numbers, and complex types that extend a simple type declared later (class T extends string) give texts that are not TypeScript (witnesses), and documentation can leave comments (C98)"
  },
  {
   "property": "C102",
   "status": "partial",
   "theorems": [
    "Xgen.C102.file",
    "Xgen.C102.document_partial",
    "Xgen.C102.bad_arrays",
    "Xgen.C102.bad_structures",
    "Xgen.C102.bad_empty",
    "Xgen.C102.bad_names"
   ],
   "note": "names with letters outside of the scripts in Spec/Alphabet.lean, or that start with a letter without a capital, are missing; in general false: char[] in groups, in references to groups and as item of lists (char[] X;), structures without members, files without declarations and a type called enum give texts that are not C (witnesses), and documentation can leave comments (C98)"
  },
  {
   "property": "C103",
   "status": "partial",
   "theorems": [
    "Xgen.C103.project_partial"
   ],
   "note": "for sound projects (C62) whose trees satisfy the conditions of C96 and C99 to C102; in general false, see there"
  },
  {
   "property": "C104",
   "status": "partial",
   "theorems": [
    "Xgen.C104.project_partial",
    "Xgen.C104.included_dangling"
   ],
   "note": "for sound projects (C62) with the exceptions of C71; false for complex types of included schemas, for which nothing is generated (included_dangling)"
  },
  {
   "property": "C105",
   "status": "partial",
   "theorems": [
    "Xgen.C105.project_partial",
    "Xgen.C105.packages_differ",
    "Xgen.C105.declared_twice"
   ],
   "note": "for sound projects (C62) that satisfy Suitable; false if a package is given (packages_differ) and if two schemas declare the same name (declared_twice)"
  },
  {
   "property": "C106",
   "status": "partial",
   "theorems": [
    "Xgen.C106.body_partial",
    "Xgen.C106.fetched",
    "Xgen.C106.reported",
    "Xgen.C106.closed",
    "Xgen.C106.not_found"
   ],
   "note": "bodies are closed: proved; the bytes sent or an error: proved for status 200, exact behaviour proved for all; the last sentence is false: every other status is taken for an empty schema (not_found)"
  },
  {
   "property": "C107",
   "status": "partial",
   "theorems": [
    "Xgen.C107.command_partial"
   ],
   "note": "composition of C60, C81, C84, C91, C62, C65, C103; names as in C96 and the schemas for which C96 and C99 to C102 hold; the formatter for Go is assumed to keep package, imports and declarations"
  },
  {
   "property": "C108",
   "status": "partial",
   "theorems": [
    "Xgen.C108.directory_partial"
   ],
   "note": "C107 for directories, with C61; the schemas for which C96 and C99 to C102 hold; the formatter for Go is assumed to keep package, imports and declarations"
  },
  {
   "property": "C109",
   "status": "proved",
   "theorems": [
    "Xgen.C109.same_code",
    "Xgen.C109.leaves"
   ],
   "note": "the folder is compared place by place, other paths may differ; whether directories and files can be made is assumed alike at corresponding paths; with `leaves`, the witness that the condition on locations is needed"
  },
  {
   "property": "C11",
   "status": "partial",
   "theorems": [
    "Xgen.C11.output_inside_partial",
    "Xgen.C11.written_inside_partial",
    "Xgen.C11.written_below_partial",
    "Xgen.C11.written_outside",
    "Xgen.C11.single_file_is_beside",
    "Xgen.C11.escapes_without_outputDir",
    "Xgen.C11.clean_leadsTo",
    "Xgen.C11.dir_leadsTo",
    "Xgen.C11.join_leadsTo"
   ],
   "note": "false for a single input file (-i a.xsd -o out writes out.go beside out) and for an empty output directory with a rest that begins with / (written to the root): written_outside; proved otherwise; clean_leadsTo/written_below: stated for the places paths lead to, independently of filepath.Clean"
  },
  {
   "property": "C110",
   "status": "partial",
   "theorems": [
    "Xgen.C110.outline_tree",
    "Xgen.C110.same_outline",
    "Xgen.C110.c",
    "Xgen.C110.java",
    "Xgen.C110.rust",
    "Xgen.C110.go",
    "Xgen.C110.ts_partial",
    "Xgen.C110.declarations_length",
    "Xgen.C110.disagree"
   ],
   "note": "for documents of core schemas (C40); TypeScript: enumeration values that can be read back (C49); the order of the members of a union does depend on the language (example); `disagree` is the witness that the condition is needed"
  },
  {
   "property": "C111",
   "status": "partial",
   "theorems": [
    "Xgen.C111.project_partial",
    "Xgen.C111.two_languages_partial",
    "Xgen.C111.reached_same",
    "Xgen.C111.needs_same",
    "Xgen.C111.trees_outline",
    "Xgen.C111.accepted_by_language",
    "Xgen.C111.files_by_language"
   ],
   "note": "first sentence: for sound projects (C62) with consistent elements (C110) and, in TypeScript, readable enumeration values (C49); second sentence false: the base of a restriction is looked up a second time under its target type, so that a schema can be rejected for Java and accepted for Go (accepted_by_language), or be translated to further files (files_by_language)"
  },
  {
   "property": "C112",
   "status": "proved",
   "theorems": [
    "Xgen.C112.same_end",
    "Xgen.C112.accepted",
    "Xgen.C112.elements_differ",
    "Xgen.C112.imports_matter"
   ],
   "note": "for every document in the sense of the statement; the elements inside complex types are excepted for a reason (elements_differ), and so are imports (imports_matter)"
  },
  {
   "property": "C113",
   "status": "proved",
   "theorems": [
    "Xgen.C113.bounded",
    "Xgen.C113.few_components"
   ],
   "note": "for every document and every file system"
  },
  {
   "property": "C114",
   "status": "proved",
   "theorems": [
    "Xgen.C114.same_command",
    "Xgen.C114.same_arguments"
   ],
   "note": "with writable output; documents without import, include and empty type or ref, as the statement says; imports_matter shows that imports have to be excluded"
  },
  {
   "property": "C115",
   "status": "proved",
   "theorems": [
    "Xgen.C115.same_files"
   ],
   "note": "with writable output; documents without import, include and empty type or ref, as the statement says; imports_matter shows that imports have to be excluded"
  },
  {
   "property": "C12",
   "status": "partial",
   "theorems": [
    "Xgen.C12.different_files_partial",
    "Xgen.C12.different_places_partial",
    "Xgen.C12.collision"
   ],
   "note": "false in general: an input already ending in the extension collides; proved when neither does"
  },
  {
   "property": "C13",
   "status": "proved",
   "theorems": [
    "Xgen.C13.exported",
    "Xgen.C13.underscore_names",
    "Xgen.C13.no_capital"
   ],
   "note": "underscore_names, no_capital: what happens outside the hypothesis; proved for more than is claimed: also for letters outside of ASCII (Spec/Alphabet.lean)"
  },
  {
   "property": "C14",
   "status": "partial",
   "theorems": [
    "Xgen.C14.no_collision_partial",
    "Xgen.C14.collision",
    "Xgen.C14.names_eq",
    "Xgen.C14.first_use"
   ],
   "note": "false in general (A, A, A2); proved for names without final digit"
  },
  {
   "property": "C15",
   "status": "partial",
   "theorems": [
    "Xgen.C15.go",
    "Xgen.C15.c",
    "Xgen.C15.java",
    "Xgen.C15.rust",
    "Xgen.C15.ts_partial",
    "Xgen.C15.ts_twice",
    "Xgen.C15.list_again",
    "Xgen.C15.first_of_each_name",
    "Xgen.Decl.declared_complete",
    "Xgen.Decl.declared_sublist",
    "Xgen.Decl.declared_once",
    "Xgen.Decl.declared_first"
   ],
   "note": "proved for Go, C, Java and Rust; false for TypeScript enumerations (witness), whose exact behaviour is proved for trees in which enumerated list types are the first of their names (list_again)"
  },
  {
   "property": "C16",
   "status": "partial",
   "theorems": [
    "Xgen.C16.time_flag",
    "Xgen.C16.xml_flag",
    "Xgen.C16.source",
    "Xgen.C16.time_used",
    "Xgen.C16.xml_used",
    "Xgen.C16.used_in_code",
    "Xgen.C16.time_missing",
    "Xgen.C16.xml_missing",
    "Xgen.C16.time_partial",
    "Xgen.C16.xml_partial"
   ],
   "note": "no unused import: proved; exact conditions of each import proved; no missing import: false (witnesses), proved outside the places listed"
  },
  {
   "property": "C17",
   "status": "proved",
   "theorems": [
    "Xgen.C17.read_complex",
    "Xgen.C17.in_file"
   ],
   "note": ""
  },
  {
   "property": "C18",
   "status": "partial",
   "theorems": [
    "Xgen.C18.declared_partial",
    "Xgen.C18.placed",
    "Xgen.C18.run_agree",
    "Xgen.C18.overwritten"
   ],
   "note": "proved for every element at its declaration, in every document; false for the finished tree, where a later attribute's restriction overwrites the last element (witness)"
  },
  {
   "property": "C19",
   "status": "partial",
   "theorems": [
    "Xgen.C19.merged_partial",
    "Xgen.C19.merge_iff",
    "Xgen.C19.kept",
    "Xgen.C19.present",
    "Xgen.C19.not_merged"
   ],
   "note": "merging of a repetition is false when the name was first declared with another type (witness); proved for consistent declarations; preservation proved in general"
  },
  {
   "property": "C20",
   "status": "proved",
   "theorems": [
    "Xgen.C20.distinct",
    "Xgen.C20.present",
    "Xgen.C20.kept"
   ],
   "note": ""
  },
  {
   "property": "C21",
   "status": "proved",
   "theorems": [
    "Xgen.C21.optional",
    "Xgen.C21.final"
   ],
   "note": ""
  },
  {
   "property": "C22",
   "status": "proved",
   "theorems": [
    "Xgen.C22.terminates",
    "Xgen.C22.budget_irrelevant",
    "Xgen.C22.Parse_eq",
    "Xgen.C22.Parse_unique",
    "Xgen.C22.loop_budget_irrelevant"
   ],
   "note": ""
  },
  {
   "property": "C23",
   "status": "proved",
   "theorems": [
    "Xgen.C23.extract_silent"
   ],
   "note": ""
  },
  {
   "property": "C24",
   "status": "proved",
   "theorems": [
    "Xgen.C24.success"
   ],
   "note": ""
  },
  {
   "property": "C25",
   "status": "proved",
   "theorems": [
    "Xgen.C25.generated_once"
   ],
   "note": ""
  },
  {
   "property": "C26",
   "status": "proved",
   "theorems": [
    "Xgen.C26.schema_binds",
    "Xgen.C26.include_adds",
    "Xgen.C26.parse_mono"
   ],
   "note": ""
  },
  {
   "property": "C27",
   "status": "proved",
   "theorems": [
    "Xgen.C27.builtin_local"
   ],
   "note": ""
  },
  {
   "property": "C28",
   "status": "proved",
   "theorems": [
    "Xgen.C28.unknown_is_local_name"
   ],
   "note": ""
  },
  {
   "property": "C29",
   "status": "proved",
   "theorems": [
    "Xgen.C29.not_a_file"
   ],
   "note": ""
  },
  {
   "property": "C30",
   "status": "proved",
   "theorems": [
    "Xgen.C30.accepted",
    "Xgen.C30.rejected",
    "Xgen.C30.rejected_iff",
    "Xgen.C30.choice_accepted",
    "Xgen.C30.choice_rejected",
    "Xgen.Occurs.atoi_iff"
   ],
   "note": "for a resolver that finds every referenced type (so that no other error precedes)"
  },
  {
   "property": "C31",
   "status": "proved",
   "theorems": [
    "Xgen.C31.structure_kept",
    "Xgen.C31.tree_kept",
    "Xgen.C31.freeze_kept",
    "Xgen.C31.space",
    "Xgen.C31.total"
   ],
   "note": ""
  },
  {
   "property": "C32",
   "status": "proved",
   "theorems": [
    "Xgen.C32.parseOpen_strip",
    "Xgen.C32.transparent_world",
    "Xgen.C32.insertion"
   ],
   "note": ""
  },
  {
   "property": "C33",
   "status": "proved",
   "theorems": [
    "Xgen.C33.no_panic",
    "Xgen.C33.panic_cause",
    "Xgen.C33.step_panic_iff"
   ],
   "note": ""
  },
  {
   "property": "C34",
   "status": "partial",
   "theorems": [
    "Xgen.C34.order_irrelevant_partial",
    "Xgen.C34.order_dependent",
    "Xgen.C34.order_matters"
   ],
   "note": "false in general (chained include); proved when all include tags name one location; for sets of core schemas see C63"
  },
  {
   "property": "C35",
   "status": "proved",
   "theorems": [
    "Xgen.C35.loop_eq",
    "Xgen.C35.parse_eq_loop",
    "Xgen.C35.defect_invisible"
   ],
   "note": "the decoder is any sequence of (token, error) answers"
  },
  {
   "property": "C36",
   "status": "proved",
   "theorems": [
    "Xgen.C36.field_not_keyword",
    "Xgen.C36.not_keyword_unchanged"
   ],
   "note": ""
  },
  {
   "property": "C37",
   "status": "partial",
   "theorems": [
    "Xgen.C37.go",
    "Xgen.C37.java",
    "Xgen.C37.rust",
    "Xgen.C37.ts_partial",
    "Xgen.C37.c_partial",
    "Xgen.C37.ts_lost",
    "Xgen.C37.ts_same_text",
    "Xgen.C37.c_same_text",
    "Xgen.C37.c_lost"
   ],
   "note": "proved for Go, Java and Rust; false for TypeScript built-in types and for C array types (witnesses), exact behaviour proved"
  },
  {
   "property": "C38",
   "status": "proved",
   "theorems": [
    "Xgen.C38.decisions",
    "Xgen.C38.exclusive"
   ],
   "note": ""
  },
  {
   "property": "C39",
   "status": "proved",
   "theorems": [
    "Xgen.C39.command",
    "Xgen.C39.main_loop"
   ],
   "note": ""
  },
  {
   "property": "C40",
   "status": "proved",
   "theorems": [
    "Xgen.C40.schema_tree",
    "Xgen.C40.open_tree",
    "Xgen.C40.extracted",
    "Xgen.C40.answers",
    "Xgen.C40.typeRef_stable",
    "Xgen.C40.documented_tree"
   ],
   "note": "for regular schemas without imports and includes; white space, comments and tags without handlers may stand anywhere"
  },
  {
   "property": "C41",
   "status": "partial",
   "theorems": [
    "Xgen.C41.twice_partial",
    "Xgen.C41.java_anyURI"
   ],
   "note": "false for Java anyURI; proved for all other cases"
  },
  {
   "property": "C42",
   "status": "partial",
   "theorems": [
    "Xgen.C42.unreachable",
    "Xgen.C42.no_reference_reaches"
   ],
   "note": "the property is false: its negation is proved"
  },
  {
   "property": "C43",
   "status": "proved",
   "theorems": [
    "Xgen.C43.independent"
   ],
   "note": ""
  },
  {
   "property": "C44",
   "status": "partial",
   "theorems": [
    "Xgen.C44.interferes",
    "Xgen.C44.independent_partial"
   ],
   "note": "false (witness): the numbering counter is shared; proved for schemas without common or clashing target names, at the granularity of components"
  },
  {
   "property": "C45",
   "status": "proved",
   "theorems": [
    "Xgen.C45.consistent",
    "Xgen.C45.run_inv"
   ],
   "note": ""
  },
  {
   "property": "C46",
   "status": "partial",
   "theorems": [
    "Xgen.C46.no_residue_partial",
    "Xgen.C46.idle_text",
    "Xgen.C46.idle_blind",
    "Xgen.C46.residue",
    "Xgen.C46.swallowed"
   ],
   "note": "false for untyped top-level elements (witness); proved for every declaration of the core fragment that has no element with an anonymous restriction (those leave their pointer behind, C68)"
  },
  {
   "property": "C47",
   "status": "proved",
   "theorems": [
    "Xgen.C47.types_nonempty",
    "Xgen.C47.neutral"
   ],
   "note": ""
  },
  {
   "property": "C48",
   "status": "proved",
   "theorems": [
    "Xgen.C48.C.read_complex",
    "Xgen.C48.C.in_file",
    "Xgen.C48.Java.read_complex",
    "Xgen.C48.Java.in_file",
    "Xgen.C48.Rust.read_complex",
    "Xgen.C48.Rust.in_file",
    "Xgen.C48.TS.read_complex",
    "Xgen.C48.TS.in_file"
   ],
   "note": "in the generated TypeScript file for trees in which enumerated list types are the first of their names (see C15)"
  },
  {
   "property": "C49",
   "status": "partial",
   "theorems": [
    "Xgen.C49.read_enum_partial",
    "Xgen.C49.unreadable",
    "Xgen.C49.generated",
    "Xgen.C49.collected"
   ],
   "note": "false for values with quotes (witness): values are not escaped; proved for values without line break, =, quote and backslash, from the facets to the text"
  },
  {
   "property": "C50",
   "status": "partial",
   "theorems": [
    "Xgen.C50.own_file_partial",
    "Xgen.C50.lost_on_import"
   ],
   "note": "false for imported schemas (witness); proved for the file of the options itself"
  },
  {
   "property": "C51",
   "status": "partial",
   "theorems": [
    "Xgen.C51.kept_partial",
    "Xgen.C51.exact",
    "Xgen.C51.captured",
    "Xgen.C51.captured_schema"
   ],
   "note": "false when a declaration is named like the target type (witness schema); proved otherwise, and exact behaviour proved"
  },
  {
   "property": "C52",
   "status": "proved",
   "theorems": [
    "Xgen.C52.formatting",
    "Xgen.C52.raw_is_source"
   ],
   "note": ""
  },
  {
   "property": "C53",
   "status": "partial",
   "theorems": [
    "Xgen.C15.files",
    "Xgen.C53.go_partial",
    "Xgen.C53.c_partial",
    "Xgen.C53.java_partial",
    "Xgen.C53.ts_partial",
    "Xgen.C53.rust_partial",
    "Xgen.C53.confused"
   ],
   "note": "false when two components have the same target name (witness confused): a reference never carries the number that makes the declared name unique; proved for every component whose target name is new"
  },
  {
   "property": "C54",
   "status": "partial",
   "theorems": [
    "Xgen.C15.files",
    "Xgen.C54.Go.read_group",
    "Xgen.C54.Go.read_attrGroup",
    "Xgen.C54.Go.like_complex_partial",
    "Xgen.C54.Go.untagged",
    "Xgen.C54.C.read_group",
    "Xgen.C54.C.read_attrGroup",
    "Xgen.C54.C.like_complex_partial",
    "Xgen.C54.C.unsplit",
    "Xgen.C54.TS.read_group",
    "Xgen.C54.TS.read_attrGroup",
    "Xgen.C54.TS.like_complex",
    "Xgen.C54.Java.read_group",
    "Xgen.C54.Java.like_complex",
    "Xgen.C54.Java.read_attrGroup",
    "Xgen.C54.Java.attrs_like_complex_partial",
    "Xgen.C54.Java.misplaced",
    "Xgen.C54.Rust.read_group",
    "Xgen.C54.Rust.like_complex_partial",
    "Xgen.C54.Rust.single",
    "Xgen.C54.Rust.read_attrGroup",
    "Xgen.C54.Rust.attrs_like_complex_partial",
    "Xgen.C54.Rust.vectors"
   ],
   "note": "the members read are proved in every language; equality with a complex type holds for TypeScript and for Java groups, and fails with witnesses for untagged Go members, C array types, Java attribute suffixes and Rust plurality"
  },
  {
   "property": "C55",
   "status": "partial",
   "theorems": [
    "Xgen.C15.files",
    "Xgen.C55.memberMeaning_eq",
    "Xgen.C55.Go.simple",
    "Xgen.C55.Go.global_element",
    "Xgen.C55.Go.global_attribute",
    "Xgen.C55.Go.union",
    "Xgen.C55.Go.list_twice",
    "Xgen.C55.Go.list_partial",
    "Xgen.C55.Go.pointer_to_pointer",
    "Xgen.C55.C.simple",
    "Xgen.C55.C.global_element",
    "Xgen.C55.C.global_attribute",
    "Xgen.C55.C.type_idem",
    "Xgen.C55.C.list",
    "Xgen.C55.C.union",
    "Xgen.C55.TS.simple",
    "Xgen.C55.TS.global_element",
    "Xgen.C55.TS.global_attribute",
    "Xgen.C55.TS.list",
    "Xgen.C55.TS.union",
    "Xgen.C55.Java.simple",
    "Xgen.C55.Java.list",
    "Xgen.C55.Java.global_element",
    "Xgen.C55.Java.global_attribute",
    "Xgen.C55.Java.union",
    "Xgen.C55.Rust.simple",
    "Xgen.C55.Rust.list",
    "Xgen.C55.Rust.global_element",
    "Xgen.C55.Rust.global_attribute",
    "Xgen.C55.Rust.union",
    "Xgen.C55.Rust.misnamed"
   ],
   "note": "false for Go lists of user types (pointer to pointer) and for the XML names of Rust union members (witnesses); everything else proved"
  },
  {
   "property": "C56",
   "status": "partial",
   "theorems": [
    "Xgen.C56.Go.file_names",
    "Xgen.C56.C.file_names",
    "Xgen.C56.Java.file_names",
    "Xgen.C56.Rust.file_names",
    "Xgen.C56.TS.file_names_partial",
    "Xgen.C56.firsts_eq",
    "Xgen.C56.finals_eq",
    "Xgen.C56.C.finals_eq"
   ],
   "note": "proved for Go, C, Java and Rust; for TypeScript if list types that have enumeration values are the first of their names, and enumerations are declared whenever they occur"
  },
  {
   "property": "C57",
   "status": "proved",
   "theorems": [
    "Xgen.C57.text_inert",
    "Xgen.C57.run_noText",
    "Xgen.C57.step_same",
    "Xgen.C57.gvtOf_same"
   ],
   "note": ""
  },
  {
   "property": "C58",
   "status": "partial",
   "theorems": [
    "Xgen.C58.Go.file",
    "Xgen.C58.C.file",
    "Xgen.C58.Java.file",
    "Xgen.C58.Rust.file",
    "Xgen.C58.TS.file_partial"
   ],
   "note": "proved for Go (the source handed to gofmt), C, Java and Rust; for TypeScript if list types that have enumeration values are the first of their names, with enumeration values that C49 can read"
  },
  {
   "property": "C59",
   "status": "partial",
   "theorems": [
    "Xgen.C59.go",
    "Xgen.C59.c",
    "Xgen.C59.java",
    "Xgen.C59.rust",
    "Xgen.C59.ts_partial",
    "Xgen.C59.covered",
    "Xgen.C59.tree_legible"
   ],
   "note": "proved for Go (up to the formatter), C, Java and Rust; for TypeScript with enumeration values that C49 can read; documents without imports and includes, in the core fragment of C40"
  },
  {
   "property": "C60",
   "status": "proved",
   "theorems": [
    "Xgen.C60.reads",
    "Xgen.C60.rejects",
    "Xgen.C60.line",
    "Xgen.C60.run",
    "Xgen.C60.positional_input_ignored"
   ],
   "note": "flag.Parse is modelled from its documentation"
  },
  {
   "property": "C61",
   "status": "proved",
   "theorems": [
    "Xgen.C61.directory",
    "Xgen.C61.mem_places",
    "Xgen.C61.in_order",
    "Xgen.C61.walk_places",
    "Xgen.C61.mirrored",
    "Xgen.C61.unclean_elsewhere",
    "Xgen.C61.hidden_clash",
    "Xgen.C61.linked_directory"
   ],
   "note": "documents of the core fragment of C40; for Go the formatter must accept the sources, for TypeScript the enumeration values must be readable as in C49"
  },
  {
   "property": "C62",
   "status": "proved",
   "theorems": [
    "Xgen.C62.translated",
    "Xgen.C62.written",
    "Xgen.C62.answers",
    "Xgen.C62.subdirectory_not_written",
    "Xgen.C62.prefixes_leak",
    "Xgen.C62.import_order",
    "Xgen.C62.unused_import",
    "Xgen.C11.beside_leadsTo"
   ],
   "note": "documents of the core fragment of C40 in one directory, with any text, with imports and includes; the conditions are in Project.Sound; four witnesses show what happens without them"
  },
  {
   "property": "C63",
   "status": "proved",
   "theorems": [
    "Xgen.C63.translated",
    "Xgen.C63.disagreement",
    "Xgen.C63.missing_include",
    "Xgen.C63.forward_reference",
    "Xgen.C11.beside_leadsTo"
   ],
   "note": "documents of the core fragment of C40 in one directory, without imports (C62 has both); C34 shows what happens with files included indirectly, three witnesses what happens without the other conditions"
  },
  {
   "property": "C64",
   "status": "proved",
   "theorems": [
    "Xgen.C64.reworded",
    "Xgen.C64.reworded_on",
    "Xgen.C64.parse_twins",
    "Xgen.C64.run_alike",
    "Xgen.C64.formatter_matters"
   ],
   "note": "the formatter is a parameter: for Go its acceptance is supposed not to depend on documentation (C09: documentation cannot leave its comment); without this the claim fails, witness formatter_matters"
  },
  {
   "property": "C65",
   "status": "partial",
   "theorems": [
    "Xgen.C65.generated",
    "Xgen.C65.generated_partial",
    "Xgen.C65.declares_all",
    "Xgen.C65.trees_legible"
   ],
   "note": "complete for Go, C, Java and Rust; TypeScript without enumeration values that contain quotes, equal signs or backslashes (C49 shows that those cannot be read back)"
  },
  {
   "property": "C66",
   "status": "partial",
   "theorems": [
    "Xgen.C66.fails_partial",
    "Xgen.C66.getValueType_missing",
    "Xgen.C66.swallowed",
    "Xgen.C66.unreadable",
    "Xgen.C66.nested",
    "Xgen.C11.beside_leadsTo"
   ],
   "note": "proved for imported files that do not exist; false for files that exist but cannot be read, and for imports of imported files (witnesses)"
  },
  {
   "property": "C67",
   "status": "partial",
   "theorems": [
    "Xgen.C67.tree_partial",
    "Xgen.C67.comment_partial",
    "Xgen.C67.file_partial",
    "Xgen.C67.text_heads",
    "Xgen.C67.group_lost",
    "Xgen.C67.anonymous_lost",
    "Xgen.C67.member_replaces",
    "Xgen.C67.inner_replaces"
   ],
   "note": "proved for text right inside top-level declarations; false for groups, anonymous elements and documented members (witnesses)"
  },
  {
   "property": "C68",
   "status": "partial",
   "theorems": [
    "Xgen.C68.top_partial",
    "Xgen.C68.member_partial",
    "Xgen.C68.restricts_builtin",
    "Xgen.C68.restricts_declared",
    "Xgen.C68.builtin_again",
    "Xgen.C68.no_facets",
    "Xgen.C68.lists_and_unions",
    "Xgen.C68.type_cut_short",
    "Xgen.C68.group_lost",
    "Xgen.C68.outer_lost",
    "Xgen.C68.later_lost",
    "Xgen.C68.values_leak",
    "Xgen.C68.element_twice",
    "Xgen.C68.java_anyURI"
   ],
   "note": "proved for restrictions with facets, at the top level and in named complex types of regular schemas; false for restrictions without facets, lists, unions, inside groups and anonymous complex types, and for what follows (witnesses)"
  },
  {
   "property": "C69",
   "status": "partial",
   "theorems": [
    "Xgen.C69.order_partial",
    "Xgen.C69.import_order",
    "Xgen.C69.ref_order",
    "Xgen.C69.twice"
   ],
   "note": "proved for every order that keeps namespace before schemaLocation (or after it) in import tags; false when they are swapped (witness)"
  },
  {
   "property": "C70",
   "status": "partial",
   "theorems": [
    "Xgen.C70.go_partial",
    "Xgen.C70.c_partial",
    "Xgen.C70.java_partial",
    "Xgen.C70.rust_partial",
    "Xgen.C70.ts_partial",
    "Xgen.C70.chain",
    "Xgen.C70.stale",
    "Xgen.C70.extension_late",
    "Xgen.C70.union_late",
    "Xgen.C70.same_name",
    "Xgen.C70.numbers"
   ],
   "note": "proved for orders in which what a type is made from stands before it; false for others (witnesses)"
  },
  {
   "property": "C71",
   "status": "partial",
   "theorems": [
    "Xgen.C71.go_partial",
    "Xgen.C71.c_partial",
    "Xgen.C71.java_partial",
    "Xgen.C71.rust_partial",
    "Xgen.C71.ts_partial",
    "Xgen.C71.linked",
    "Xgen.C71.go_interface",
    "Xgen.C71.go_underscore",
    "Xgen.C71.c_enum",
    "Xgen.C71.java_attr",
    "Xgen.C71.rust_element"
   ],
   "note": "proved up to names taken for target types, attribute groups in Java, elements named like types in Rust, unreadable enumeration values in TypeScript; false there (witnesses)"
  },
  {
   "property": "C72",
   "status": "partial",
   "theorems": [
    "Xgen.C72.c_partial",
    "Xgen.C72.ordered",
    "Xgen.C72.C.file",
    "Xgen.C72.forward",
    "Xgen.C72.recursive",
    "Xgen.C72.shadowed"
   ],
   "note": "proved for schemas in order without types called enum; false for schemas out of order, recursive types and elements named like earlier types (witnesses)"
  },
  {
   "property": "C73",
   "status": "partial",
   "theorems": [
    "Xgen.C73.go_partial",
    "Xgen.C73.c_partial",
    "Xgen.C73.rust_partial",
    "Xgen.C73.sorted_finite",
    "Xgen.C73.c_recursive",
    "Xgen.C73.rust_recursive",
    "Xgen.C73.go_hides"
   ],
   "note": "Go: proved for names that begin with a letter; C and Rust: proved for schemas in order with names that stay different; false for recursive types in C and Rust and for names like _int in Go (witnesses)"
  },
  {
   "property": "C74",
   "status": "partial",
   "theorems": [
    "Xgen.C74.Go.file",
    "Xgen.C74.C.file",
    "Xgen.C74.Java.file",
    "Xgen.C74.Rust.file",
    "Xgen.C74.TS.file_partial",
    "Xgen.C74.go_partial",
    "Xgen.C74.c_partial",
    "Xgen.C74.java_partial",
    "Xgen.C74.rust_partial",
    "Xgen.C74.ts_partial",
    "Xgen.C74.case_collides",
    "Xgen.C74.punctuation_collides",
    "Xgen.C74.attr_collides",
    "Xgen.C74.group_collides",
    "Xgen.C74.base_collides",
    "Xgen.C74.rust_collides"
   ],
   "note": "proved for trees and for documents, with names in all scripts (in Rust those that lower-casing takes to the same letters, as in ASCII and ISO-8859-1: Steady); missing: in TypeScript enumerated lists and enumeration values that cannot be read; witnesses where a proviso is dropped"
  },
  {
   "property": "C75",
   "status": "proved",
   "theorems": [
    "Xgen.C75.round_trip",
    "Xgen.C75.typeInfo_eq",
    "Xgen.C75.fits_res",
    "Xgen.C75.fixture_kept",
    "Xgen.C75.lower_case_type",
    "Xgen.C75.lower_case_base",
    "Xgen.C75.groups_lost",
    "Xgen.C75.unions_lost",
    "Xgen.C75.optional_changed",
    "Xgen.C75.element_renamed",
    "Xgen.C75.bytes_lost",
    "Xgen.C75.number_lists_fail",
    "Xgen.C75.extension_reordered",
    "Xgen.C75.untyped_attribute"
   ],
   "note": "for trees; the meaning of Go types to encoding/xml is written down in Spec/GoXml.lean, independently of the generators; witnesses for what does not survive"
  },
  {
   "property": "C76",
   "status": "partial",
   "theorems": [
    "Xgen.C76.file_partial",
    "Xgen.C76.java_partial",
    "Xgen.C76.qname_missing",
    "Xgen.C76.example_used"
   ],
   "note": "false for QName, the target type of anyURI, which no import names (qname_missing); proved for all other classes"
  },
  {
   "property": "C77",
   "status": "partial",
   "theorems": [
    "Xgen.C77.valid_kept_partial",
    "Xgen.C77.suitable",
    "Xgen.C77.document",
    "Xgen.C77.exact",
    "Xgen.C77.bill_valid",
    "Xgen.C77.sequence_lost",
    "Xgen.C77.element_lost",
    "Xgen.C77.not_said"
   ],
   "note": "false for repeated sequences and for elements declared in two places, of which one occurrence survives (sequence_lost, element_lost); proved for schemas whose repeated elements are declared as such on the element or a choice, without groups, references, unions and lower-case type names; encoding/xml and gofmt as in C75"
  },
  {
   "property": "C78",
   "status": "partial",
   "theorems": [
    "Xgen.C78.adequate_partial",
    "Xgen.C78.narrow",
    "Xgen.C78.Narrow.not_adequate",
    "Xgen.C78.sample_legal",
    "Xgen.C78.byte_unsigned"
   ],
   "note": "false for the listed types, each with a legal value that is lost (narrow); proved for all others; trees without a declaration named like the target type (C51); texts stand for all values that are not numbers, booleans, bytes, lists or names"
  },
  {
   "property": "C79",
   "status": "proved",
   "theorems": [
    "Xgen.C79.url_absolute",
    "Xgen.C79.path_not_url",
    "Xgen.C79.url_ordinary",
    "Xgen.C79.import_skipped",
    "Xgen.C79.import_kept",
    "Xgen.C79.places",
    "Xgen.C79.remote_reference",
    "Xgen.C79.url_parts"
   ],
   "note": "net/url modelled from its source (Model/Url.lean); the other theorems hold for any test for URLs"
  },
  {
   "property": "C80",
   "status": "partial",
   "theorems": [
    "Xgen.C80.go_partial",
    "Xgen.C80.accepted",
    "Xgen.C80.imports_used",
    "Xgen.C80.imports_exact",
    "Xgen.C80.imports_document",
    "Xgen.C80.time_missing",
    "Xgen.C80.xml_missing",
    "Xgen.C80.chain_embedded"
   ],
   "note": "imports: exact for all documents; the rest for schemas in the class Suitable (C71, C73, C74); false outside of it, with witnesses"
  },
  {
   "property": "C81",
   "status": "proved",
   "theorems": [
    "Xgen.C81.decode_written",
    "Xgen.C81.decode_enough",
    "Xgen.C81.fixture_read"
   ],
   "note": "the decoder of encoding/xml is modelled from its source; conversion from encodings other than UTF-8 is not"
  },
  {
   "property": "C82",
   "status": "proved",
   "theorems": [
    "Xgen.C82.nested",
    "Xgen.C82.named",
    "Xgen.C82.characters",
    "Xgen.C82.cut",
    "Xgen.C82.relaid",
    "Xgen.C82.relaid_written",
    "Xgen.C82.document",
    "Xgen.C82.fixture_written",
    "Xgen.C82.cut_written"
   ],
   "note": ""
  },
  {
   "property": "C83",
   "status": "partial",
   "theorems": [
    "Xgen.C83.same_tree_partial",
    "Xgen.C83.same_up_to_documentation_partial",
    "Xgen.C83.ref_not",
    "Xgen.C83.shared_prefixes_not"
   ],
   "note": "false: the prefix of a ref becomes part of the member name, and an imported file that binds a prefix of the importing file to another namespace replaces its binding; proved for one-file projects and the values of type, base, itemType and memberTypes"
  },
  {
   "property": "C84",
   "status": "proved",
   "theorems": [
    "Xgen.C84.others_kept",
    "Xgen.C84.as_at_the_start",
    "Xgen.C84.reads_kept",
    "Xgen.C84.apart_by_names",
    "Xgen.C84.apart_checked",
    "Xgen.C84.not_apart",
    "Xgen.C84.directory_found"
   ],
   "note": ""
  },
  {
   "property": "C85",
   "status": "partial",
   "theorems": [
    "Xgen.C85.again_listed_partial",
    "Xgen.C85.again_partial",
    "Xgen.C85.depends_on_reads",
    "Xgen.C85.look_again",
    "Xgen.C85.in_place_destroys"
   ],
   "note": "false when the generated files lie below the input directory: the second run takes them for schemas and writes files without declarations over them; proved when nothing looked up is written and no file is generated below the input directory (again_listed_partial; again_partial: or the list of inputs is the same for another reason)"
  },
  {
   "property": "C86",
   "status": "partial",
   "theorems": [
    "Xgen.C86.written_valid_partial",
    "Xgen.C86.regular_of_check",
    "Xgen.C86.extension_invalid",
    "Xgen.C86.choice_invalid"
   ],
   "note": "false when a type with elements extends a type with elements, because the extended struct is embedded last, and for choices between elements of built-in types, because what was not chosen is written as zero; proved for schemas where neither happens, with repeated choices of single elements and without repeated sequences"
  },
  {
   "property": "C87",
   "status": "proved",
   "theorems": [
    "Xgen.C87.settled",
    "Xgen.C87.second_round",
    "Xgen.C87.laws_needed"
   ],
   "note": "for the schemas of C77 (`Suitable`); encoding/xml as modelled in Spec/GoXml"
  },
  {
   "property": "C88",
   "status": "partial",
   "theorems": [
    "Xgen.C88.inserted_partial",
    "Xgen.C88.appended_partial",
    "Xgen.C88.captured",
    "Xgen.C88.hidden",
    "Xgen.C88.renumbered"
   ],
   "note": "false in general: an added element with the name of a target type or of a complex type changes declarations that do not mention it, and a name that becomes that of a later type renumbers it; proved under exactly these exclusions; at document level for declarations added at the end"
  },
  {
   "property": "C89",
   "status": "partial",
   "theorems": [
    "Xgen.C89.trees_partial",
    "Xgen.C89.command_partial",
    "Xgen.C89.torn_code",
    "Xgen.C89.marked"
   ],
   "note": "false for names with line feeds, which XML Schema excludes (witness torn_code); proved without such names, for trees and for the whole command"
  },
  {
   "property": "C90",
   "status": "proved",
   "theorems": [
    "Xgen.C90.command",
    "Xgen.C90.parsed",
    "Xgen.C90.legible",
    "Xgen.C90.c",
    "Xgen.C90.rust",
    "Xgen.C90.java",
    "Xgen.C90.go",
    "Xgen.C90.ts_partial",
    "Xgen.C90.unspelled"
   ],
   "note": "for TypeScript the reading back is proved with enumeration values that C49 can read, where list types with enumeration values are the first of their names (ts_partial); unspelled shows that the hypothesis on spelling is needed"
  },
  {
   "property": "C91",
   "status": "proved",
   "theorems": [
    "Xgen.C91.same",
    "Xgen.C91.stored_read",
    "Xgen.C91.utf8_exact",
    "Xgen.C91.utf8_bare",
    "Xgen.C91.marked",
    "Xgen.C91.any",
    "Xgen.C91.utf16",
    "Xgen.C91.unknown",
    "Xgen.C91.project",
    "Xgen.C91.parse_same",
    "Xgen.C91.command_same",
    "Xgen.C91.undeclared",
    "Xgen.C91.commented",
    "Xgen.C91.control_changed",
    "Xgen.C91.changed_again",
    "Xgen.C91.utf16_written"
   ],
   "note": "encodings other than UTF-8 and windows-1252 are parameters; control_changed and changed_again show that the conditions on the text are needed; undeclared and utf16_written are what happens to files in encodings that are not declared or not readable"
  },
  {
   "property": "C92",
   "status": "partial",
   "theorems": [
    "Xgen.C92.reads_intact",
    "Xgen.C92.restart_partial",
    "Xgen.C92.restored",
    "Xgen.C92.whole_or_torn",
    "Xgen.C92.one_torn",
    "Xgen.C92.old_lost",
    "Xgen.C92.in_place_restart"
   ],
   "note": "false when files are generated where schemas are looked for (witness in_place_restart) and old files are not replaced at once (witness old_lost); proved when no path is both looked at and written to"
  },
  {
   "property": "C93",
   "status": "partial",
   "theorems": [
    "Xgen.C93.elsewhere",
    "Xgen.C93.unnoticed",
    "Xgen.C93.stored_all",
    "Xgen.C93.full_disk"
   ],
   "note": "the last sentence is false: the results of writes are not looked at (witness full_disk), which unnoticed shows for all runs; the rest is proved when no path is both looked at and written to"
  },
  {
   "property": "C94",
   "status": "proved",
   "theorems": [
    "Xgen.C94.parse_reads",
    "Xgen.C94.command_reads",
    "Xgen.C94.read_again"
   ],
   "note": "read_again shows that included files are read again for each reference"
  },
  {
   "property": "C95",
   "status": "proved",
   "theorems": [
    "Xgen.C95.reasons",
    "Xgen.C95.message",
    "Xgen.C95.done_iff",
    "Xgen.C95.silent",
    "Xgen.C95.ambiguous"
   ],
   "note": "texts of errors of the standard library are a parameter; ambiguous: the message does not separate file name and error"
  },
  {
   "property": "C96",
   "status": "partial",
   "theorems": [
    "Xgen.C96.file",
    "Xgen.C96.fair",
    "Xgen.C96.document_partial",
    "Xgen.C96.formatted_partial",
    "Xgen.C96.bad_names",
    "Xgen.C96.keyword",
    "Xgen.C96.no_items",
    "Xgen.C96.byte_order_mark"
   ],
   "note": "names with letters outside of the scripts in Spec/Alphabet.lean, or that start with a letter without a capital, are missing; in general false: names like _1, references to something called interface, lists without item type and byte order marks in documentation give texts that are not Go (witnesses)"
  },
  {
   "property": "C97",
   "status": "proved",
   "theorems": [
    "Xgen.C97.own_text",
    "Xgen.C97.none_made"
   ],
   "note": ""
  },
  {
   "property": "C98",
   "status": "partial",
   "theorems": [
    "Xgen.C98.command_partial",
    "Xgen.C98.trees_partial",
    "Xgen.C98.confined_partial",
    "Xgen.C98.swallowed",
    "Xgen.C98.escaped_code",
    "Xgen.C98.untame",
    "Xgen.C98.lost"
   ],
   "note": "in general false: a backslash at the end of a documentation takes the next line away in C, a carriage return ends comments in C, Java and TypeScript, an escaped line feed in Java, U+2028 in TypeScript, and names can begin comments (witnesses); proved for documentation without these and for names without quotes, slashes, backslashes and line ends; in Rust all documentation is harmless"
  },
  {
   "property": "C99",
   "status": "partial",
   "theorems": [
    "Xgen.C99.file",
    "Xgen.C99.document_partial",
    "Xgen.C99.bad_names",
    "Xgen.C99.keyword",
    "Xgen.C99.vector_base"
   ],
   "note": "names with letters outside of the scripts in Spec/Alphabet.lean, or that start with a letter without a capital, are missing; in general false: names like _1, types called self, and types that extend a vector type declared behind them give texts that are not Rust (witnesses)"
  }
 ]
}
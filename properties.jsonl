{"id": "C01", "title": "Stack is LIFO for every history", "statement": "After any sequence of Push/Pop/Peek/Len/Empty calls on a new Stack the observable answers are those of an ideal last-in-first-out list: Pop returns the most recent value not yet popped (nil when there is none), Peek returns it without removing it, Len is the number of live values and Empty is Len = 0.", "quantifier": "all finite sequences of stack operations and all pushed values", "why_tests_cant": "a test fixes one finite sequence; the claim is over all histories", "anchors": ["stack.go: NewStack, Push, Pop, Peek, Len, Empty"]}
{"id": "C02", "title": "Namespace prefix splitting is exact", "statement": "For a QName with exactly one colon the prefix and local part are what stands before and after it; a string with no colon, or with two or more, is its own local part and has an empty prefix; splitting the local part again changes nothing.", "quantifier": "all strings", "why_tests_cant": "strings are unbounded", "anchors": ["utils.go: getNSPrefix, trimNSPrefix"]}
{"id": "C03", "title": "Title-casing changes only the first rune", "statement": "ToTitle / MakeFirstUpperCase upper-cases the first rune, leaves every other rune and the rune count unchanged, maps the empty string to itself and is idempotent.", "quantifier": "all valid UTF-8 strings and every Unicode upper-casing table", "why_tests_cant": "the domain is infinite", "anchors": ["utils.go: ToTitle, MakeFirstUpperCase"]}
{"id": "C04", "title": "Snake case output is lower case and loses no letter", "statement": "ToSnakeCase output contains no hyphen and no ASCII upper-case letter, and deleting underscores from it gives the lower-cased input with hyphens and underscores deleted; applying it twice equals applying it once.", "quantifier": "all strings", "why_tests_cant": "the regular-expression scan must be right at every position of every string", "anchors": ["utils.go: ToSnakeCase, matchFirstCap, matchAllCap"]}
{"id": "C05", "title": "Built-in type lookup is total", "statement": "Looking up any type name for any language string never goes out of range; it answers exactly for the 49 XSD names in the table, and an unknown language string silently gets the Go column.", "quantifier": "all type names and all language strings", "why_tests_cant": "language and value strings are arbitrary", "anchors": ["utils.go: BuildInTypes, getBuildInTypeByLang"]}
{"id": "C06", "title": "Built-in target types are rendered unchanged", "statement": "For every XSD built-in and each of the five languages the target type chosen by the lookup is emitted verbatim by that language's field-type generator (no pointer star, no re-capitalisation).", "quantifier": "every row and column of the built-in table", "why_tests_cant": "the two hand-kept tables (mapping, per-language built-in sets) must agree on every entry", "anchors": ["utils.go: BuildInTypes", "genGo.go: genGoFieldType", "genC.go: genCFieldType", "genJava.go: genJavaFieldType", "genRust.go: genRustFieldType", "genTypeScript.go: genTypeScriptFieldType"]}
{"id": "C07", "title": "Name resolution returns the first matching declaration", "statement": "Resolving a name against a parsed schema gives the base/type of the first simple type (not a list, not a union), attribute or element of that name in document order, and the name itself when there is none; later declarations and other component kinds never matter.", "quantifier": "all schema trees and names", "why_tests_cant": "trees are unbounded", "anchors": ["utils.go: getBasefromSimpleType"]}
{"id": "C08", "title": "Union members are emitted in an order independent of map iteration", "statement": "The member list produced for a union is the same for every iteration order of the underlying Go map and for every correct sorting algorithm, and is ordered by resolved type, then by name descending.", "quantifier": "all member maps, all permutations of their entries, all correct sorts", "why_tests_cant": "map iteration order is random: one run shows one order", "anchors": ["utils.go: toSortedPairs, kvPairList.Less"]}
{"id": "C09", "title": "Documentation text cannot escape its comment", "statement": "In every emitted declaration comment, each line (text between newline characters) that is not blank starts with the comment prefix, whatever the documentation text is, provided the declared name has no newline.", "quantifier": "all documentation strings, names and comment prefixes", "why_tests_cant": "documentation is attacker-controlled text of any shape", "anchors": ["utils.go: genFieldComment"]}
{"id": "C10", "title": "Output file names carry the extension exactly once", "statement": "FileWithExtension returns a path that ends with the requested extension (dot added when missing), equals the input when it already ended so, otherwise the input followed by the extension; repeated application changes nothing.", "quantifier": "all file names and extensions", "why_tests_cant": "strings are unbounded", "anchors": ["genGo.go: CodeGenerator.FileWithExtension"]}
{"id": "C11", "title": "Generated files stay inside the output directory", "statement": "When the input path, after removal of the input directory prefix, has no '..' component, the path that is written lies inside the (cleaned) output directory.", "quantifier": "all input paths, input directories and output directories", "why_tests_cant": "path strings are unbounded", "anchors": ["parser.go: Parse (path computation)"]}
{"id": "C12", "title": "Different input schemas are written to different files", "statement": "Two input files below the input directory whose relative paths differ are written to different output files.", "quantifier": "all pairs of input paths", "why_tests_cant": "requires injectivity over all paths", "anchors": ["parser.go: Parse", "genGo.go: CodeGenerator.FileWithExtension"]}
{"id": "C13", "title": "Go type names are exported identifiers", "statement": "For every schema name made of ASCII letters, digits and the separators ':', '.', '-', '_' that starts with a letter, the Go name generated is a non-empty identifier of letters and digits whose first letter is upper case.", "quantifier": "all such names", "why_tests_cant": "names are unbounded; hand tests use two or three", "anchors": ["genGo.go: genGoFieldName"]}
{"id": "C14", "title": "Generated declaration names do not collide", "statement": "Within one output file no two declarations produced through the unique-name generator have the same name.", "quantifier": "all sequences of schema component names", "why_tests_cant": "needs every history of the name counter", "anchors": ["genGo.go: genGoFieldName", "genC.go: genCFieldName", "genJava.go: genJavaFieldName", "genRust.go: genRustStructName", "genTypeScript.go: genTypeScriptFieldName"]}
{"id": "C15", "title": "One declaration per component name, first wins, in document order", "statement": "For every schema tree and language the output body is the concatenation, in tree order, of one declaration for each component whose name has not been declared before; later components of the same name contribute nothing.", "quantifier": "all schema trees, all five languages", "why_tests_cant": "trees are unbounded and names may repeat in any pattern", "anchors": ["genGo.go", "genC.go", "genJava.go", "genRust.go", "genTypeScript.go"]}
{"id": "C16", "title": "Go imports are exactly those used", "statement": "The generated Go file imports \"time\" only if a declaration mentions time.Time and \"encoding/xml\" only if one mentions xml.Name (an unused import does not compile), and conversely imports them whenever they are mentioned.", "quantifier": "all schema trees", "why_tests_cant": "the flags are set at scattered places along arbitrary trees", "anchors": ["genGo.go: GenGo, GoSimpleType, GoComplexType, GoGroup, GoAttributeGroup"]}
{"id": "C17", "title": "Go structs carry every element and attribute once, with its XML name and multiplicity", "statement": "Reading back the Go struct generated for a complex type yields one field per attribute group, attribute, group and element, in that order, each with the declared XML name in its tag, the slice marker exactly when the component is plural, omitempty exactly when an attribute is optional, and one base line exactly when a base type exists.", "quantifier": "all complex types whose names contain no tab, newline, quote or backquote", "why_tests_cant": "component lists are unbounded", "anchors": ["genGo.go: GoComplexType"]}
{"id": "C18", "title": "Choice multiplicity reaches every nested element", "statement": "An element declared in a complex type or group is plural iff its own maxOccurs allows more than one or some enclosing choice (at any depth) does.", "quantifier": "all nestings of choices and elements", "why_tests_cant": "nesting depth is unbounded", "anchors": ["xmlChoice.go: OnChoice, EndChoice", "xmlElement.go: OnElement"]}
{"id": "C19", "title": "Repeated elements of a complex type are merged, never lost", "statement": "Declaring an element in a complex type never removes or reorders earlier ones: a repetition of the same name and type keeps one entry whose plurality is the disjunction, any other declaration is appended; plurality never goes from true to false.", "quantifier": "all sequences of element declarations", "why_tests_cant": "sequences are unbounded", "anchors": ["xmlElement.go: OnElement, findElement"]}
{"id": "C20", "title": "A complex type references each model group once", "statement": "The group references recorded for a complex type have pairwise distinct names, and every referenced name is present.", "quantifier": "all sequences of group references", "why_tests_cant": "sequences are unbounded", "anchors": ["xmlGroup.go: OnGroup, inGroups"]}
{"id": "C21", "title": "Attributes are optional unless use is required", "statement": "A declared attribute is optional unless its start tag carries use=\"required\", whatever the order of its XML attributes.", "quantifier": "all attribute start tags", "why_tests_cant": "XML attribute order and multiplicity are arbitrary", "anchors": ["xmlAttribute.go: OnAttribute"]}
{"id": "C22", "title": "Parsing terminates on cyclic imports and includes", "statement": "Parse returns for every finite set of schema files, including files that import or include themselves or each other, and for every map iteration order; no bound on nested parses beyond the number of files is ever needed.", "quantifier": "all finite file systems (hence all import/include graphs), all start states, all map iteration orders", "why_tests_cant": "non-termination cannot be observed by a test; the graph shapes are unbounded", "anchors": ["parser.go: Parse, GetValueType"]}
{"id": "C23", "title": "Extract-mode parsing has no output and registers nothing", "statement": "A Parse with Extract set never writes a file, never changes ParseFileList or ParseFileMap and never starts another parse.", "quantifier": "all documents, file systems and start states", "why_tests_cant": "over all inputs", "anchors": ["parser.go: Parse, GetValueType"]}
{"id": "C24", "title": "A successful parse writes its own output last, once, at the documented path", "statement": "When Parse with Extract unset succeeds on a regular file, the file is registered, its registered tree is the final ProtoTree, and for a supported language the last write is to OutputDir joined with the path relative to InputDir plus the language extension, holding the code generated from that tree.", "quantifier": "all documents, file systems, options", "why_tests_cant": "over all inputs", "anchors": ["parser.go: Parse"]}
{"id": "C25", "title": "Each imported schema is generated at most once per run", "statement": "During one Parse, no imported schema path is parsed for generation twice, however often and through however many files it is referenced.", "quantifier": "all import graphs, all documents", "why_tests_cant": "graphs and reference patterns are unbounded", "anchors": ["parser.go: GetValueType, ParseFileMap"]}
{"id": "C26", "title": "Namespace registries evolve monotonically", "statement": "During any parse an existing namespace-to-location binding is never changed or removed and no URL is ever added as a location; the include set and the registry of parsed files only grow.", "quantifier": "all documents, file systems and start states", "why_tests_cant": "over all histories", "anchors": ["schema.go: prepareLocalNameNSMap, prepareNSSchemaLocationMap", "xmlInclude.go: OnInclude", "parser.go"]}
{"id": "C27", "title": "Built-in references resolve locally", "statement": "A reference whose local part is an XSD built-in name resolves to the table entry without reading any file, without error and without changing any state, whatever schema is loaded.", "quantifier": "all states, prefixes, languages and built-ins", "why_tests_cant": "over all states", "anchors": ["parser.go: GetValueType"]}
{"id": "C28", "title": "Unknown references fall back to their local name", "statement": "With no schema location for its namespace and no includes, a reference to an undeclared type resolves to its own local name without error and without side effects.", "quantifier": "all states, names, file systems", "why_tests_cant": "over all states", "anchors": ["parser.go: GetValueType"]}
{"id": "C29", "title": "Missing, unreadable and directory inputs", "statement": "Parse of a missing or unreadable path returns an error, of a directory returns success, and in all three cases nothing is written, registered or changed in the shared maps.", "quantifier": "all paths, file systems and start states", "why_tests_cant": "over all states", "anchors": ["parser.go: Parse"]}
{"id": "C30", "title": "maxOccurs is honoured exactly", "statement": "An element start tag is rejected with an error iff it has a maxOccurs that is neither 'unbounded' nor a decimal 64-bit integer (reached before any other error), and otherwise its own multiplicity is plural iff a maxOccurs is 'unbounded' or greater than one.", "quantifier": "all start tags", "why_tests_cant": "attribute values are arbitrary strings", "anchors": ["xmlElement.go: OnElement", "xmlChoice.go: OnChoice"]}
{"id": "C31", "title": "Character data never changes the structure", "statement": "Text content never fails, never adds or removes a component, never changes a name, type or multiplicity: it can only set documentation; white-space-only text changes nothing at all.", "quantifier": "all parser states and all texts", "why_tests_cant": "over all states", "anchors": ["xmlCharData.go: OnCharData"]}
{"id": "C32", "title": "Unhandled elements are transparent", "statement": "Start and end tags with no handler (sequence, all, annotation, documentation, simpleContent, ...) never affect the result: inserting or deleting them anywhere after the first start tag gives the same tree, same shared maps, same outputs and same error.", "quantifier": "all token streams and insertion points", "why_tests_cant": "over all documents", "anchors": ["parser.go: Parse", "utils.go: callFuncByName"]}
{"id": "C33", "title": "No panic on well-formed schemas", "statement": "Parse never panics on a document in which no element is called charData and every anonymous or nested complexType is the first handled child of an element declaration without type and ref; and a panic in any document has one of these two causes.", "quantifier": "all document trees, file systems, options, iteration orders", "why_tests_cant": "absence of crashes over all documents", "anchors": ["xmlComplexType.go: OnComplexType", "utils.go: callFuncByName", "parser.go"]}
{"id": "C34", "title": "Output does not depend on map iteration order", "statement": "The result of Parse (tree, error, files written) is the same for every Go map iteration order.", "quantifier": "all iteration orders", "why_tests_cant": "map order is random per run; a test sees one", "anchors": ["parser.go: GetValueType (range over IncludeMap)"]}
{"id": "C35", "title": "Truncated XML is processed as its prefix and reported as success", "statement": "Parse never reports an XML syntax error: the tokens before the defect are processed exactly as if the document ended there and the code for them is generated.", "quantifier": "all token streams and cut points", "why_tests_cant": "over all documents", "anchors": ["parser.go: Parse (token, _ := decoder.Token())"]}
{"id": "C36", "title": "Rust field names are never keywords", "statement": "The generated Rust field name is never one of the listed Rust keywords.", "quantifier": "all schema names", "why_tests_cant": "names are unbounded", "anchors": ["genRust.go: genRustFieldName, rustKeywords"]}
{"id": "C37", "title": "Plural components become collections", "statement": "In each language a plural element of a complex type is declared with that language's collection marker around its resolved type, and a non-plural one without.", "quantifier": "all elements and schema trees", "why_tests_cant": "over all types", "anchors": ["genGo.go", "genC.go", "genJava.go", "genRust.go", "genTypeScript.go"]}
{"id": "C38", "title": "Command line decisions", "statement": "The command exits 0 without processing for -h or -v, exits 1 when input or language is missing or the language is not one of the five, and otherwise runs with the given values, package defaulting to schema.", "quantifier": "all flag values", "why_tests_cant": "flag values are arbitrary strings", "anchors": ["cmd/xgen/xgen.go: parseFlags"]}
{"id": "C39", "title": "Command line processes all files until the first failure", "statement": "The command parses every path of the walked directory in order, each with fresh registries; it prints done and exits 0 iff all succeed, and stops with exit code 1 at the first failure, leaving later files untouched.", "quantifier": "all directory trees and file contents", "why_tests_cant": "trees are unbounded", "anchors": ["cmd/xgen/xgen.go: main", "utils.go: GetFileList"]}
{"id": "C40", "title": "Parsing a core-XSD schema yields exactly its declarations", "statement": "For every schema made of the supported constructs used in their regular form (named simple types with restriction facets, lists and unions; typed elements; elements with anonymous complex types; complex types with nested sequences, choices, group and attribute-group references, extensions and attributes; groups; attribute groups; top-level attributes) the resulting ProtoTree is the declarative translation of the schema, component by component and in order.", "quantifier": "all schemas of the fragment, of any size and nesting depth", "why_tests_cant": "schemas are unbounded trees", "anchors": ["parser.go", "xmlElement.go: OnElement", "xmlComplexType.go: OnComplexType", "xmlSimpleType.go: OnSimpleType", "xmlAttribute.go: OnAttribute", "xmlGroup.go: OnGroup", "xmlAttributeGroup.go: OnAttributeGroup"]}
{"id": "C41", "title": "Resolving a base type twice is harmless", "statement": "For every language and XSD built-in, resolving the already resolved type again (as restriction and extension bases do) gives the same type.", "quantifier": "every built-in and language", "why_tests_cant": "the mapping tables overlap with XSD names in hand-unverifiable ways", "anchors": ["xmlRestriction.go: OnRestriction", "xmlExtension.go: OnExtension", "utils.go: BuildInTypes"]}
{"id": "C42", "title": "xml: attributes of the table are reachable", "statement": "A reference to xml:lang, xml:space, xml:base or xml:id resolves to the table's string type.", "quantifier": "all references", "why_tests_cant": "requires reasoning on every string that could reach the table", "anchors": ["utils.go: BuildInTypes, trimNSPrefix", "parser.go: GetValueType"]}
{"id": "C43", "title": "Generation is independent of history", "statement": "Code generated for a tree depends only on the tree, package, language and file name: not on schemas generated earlier in the same process.", "quantifier": "all sequences of generations", "why_tests_cant": "needs all histories of a package-level counter", "anchors": ["genGo.go: fieldNameCount", "genGo.go: GenGo", "genC.go: GenC", "genJava.go: GenJava", "genRust.go: GenRust", "genTypeScript.go: GenTypeScript"]}
{"id": "C44", "title": "Concurrent parsers do not interfere", "statement": "Two independent parsers run concurrently produce the same code as when run one after the other.", "quantifier": "all interleavings", "why_tests_cant": "interleavings cannot be enumerated by tests", "anchors": ["genGo.go: fieldNameCount"]}
{"id": "C45", "title": "Group nesting bookkeeping never breaks", "statement": "In every reachable parser state the group nesting counter is non-negative, the group stack holds at most one group, and it holds one exactly when the counter is positive.", "quantifier": "all token streams", "why_tests_cant": "over all documents", "anchors": ["xmlGroup.go: OnGroup, EndGroup"]}
{"id": "C46", "title": "Parser leaves no residue between declarations", "statement": "After a complete top-level declaration all parser stacks and flags are back to their initial state, so that a declaration cannot influence how the following ones are parsed.", "quantifier": "all schemas", "why_tests_cant": "over all documents", "anchors": ["xmlElement.go: OnElement", "xmlComplexType.go: OnComplexType", "xmlSimpleType.go: OnSimpleType", "xmlAttribute.go: OnAttribute", "xmlGroup.go: OnGroup", "xmlAttributeGroup.go: OnAttributeGroup"]}
{"id": "C47", "title": "Field types are never empty", "statement": "Every field-type generator returns a non-empty type for every input, using the language's neutral type when the name is empty.", "quantifier": "all strings", "why_tests_cant": "strings are unbounded", "anchors": ["genGo.go: genGoFieldType", "genC.go: genCFieldType", "genJava.go: genJavaFieldType", "genRust.go: genRustFieldType", "genTypeScript.go: genTypeScriptFieldType"]}
{"id": "C48", "title": "C, Java, Rust and TypeScript declarations carry every element and attribute once", "statement": "Reading back the declaration generated for a complex type yields one member per attribute group, attribute, group and element, in that order, with the expected name, type and markers.", "quantifier": "all complex types with line-safe names", "why_tests_cant": "component lists are unbounded", "anchors": ["genC.go: CComplexType", "genJava.go: JavaComplexType", "genRust.go: RustComplexType", "genTypeScript.go: TypeScriptComplexType"]}
{"id": "C49", "title": "TypeScript enumerations keep every value in order", "statement": "The enum generated for a simple type with enumeration facets has one member per facet value, in document order, with the value as literal.", "quantifier": "all value lists", "why_tests_cant": "value lists are unbounded", "anchors": ["genTypeScript.go: TypeScriptSimpleType", "xmlEnumeration.go: OnEnumeration"]}
{"id": "C50", "title": "The package option reaches every generated file", "statement": "Every Go and Java file written during a Parse declares the package given in the options (schema when empty).", "quantifier": "all import graphs", "why_tests_cant": "over all graphs", "anchors": ["parser.go: GetValueType", "genGo.go: GenGo", "genJava.go: GenJava"]}
{"id": "C51", "title": "Built-in typed fields keep their built-in type", "statement": "A field whose resolved type is a target-language built-in is declared with that type.", "quantifier": "all schema trees", "why_tests_cant": "depends on every other declaration in the tree", "anchors": ["utils.go: getBasefromSimpleType", "genGo.go: GoComplexType"]}
{"id": "C52", "title": "A Go formatting failure still leaves the raw source and reports an error", "statement": "If the formatter rejects the generated Go source, the unformatted source is written, an error is returned, and the caller sees that error from Parse; if it accepts, exactly its result is written.", "quantifier": "all schema trees, all formatters", "why_tests_cant": "over all generated sources", "anchors": ["genGo.go: GenGo", "parser.go: Parse"]}
{"id": "C53", "title": "A reference to a declared type names its declaration", "statement": "A member whose type is a declared, not built-in component is given, in each target language, exactly the name under which that component is declared.", "quantifier": "all schema trees, all five target languages", "why_tests_cant": "depends on every declaration made before and on all possible names", "anchors": ["genGo.go: fieldNameCount", "genGo.go: genGoFieldType", "genC.go: genCFieldType", "genJava.go: genJavaFieldType", "genRust.go: genRustFieldType", "genTypeScript.go: genTypeScriptFieldType"]}
{"id": "C54", "title": "Groups and attribute groups declare their members like complex types", "statement": "The declaration of a group or attribute group reads back as the same members, with the same names, types, plurality and annotations, as a complex type with the same elements, groups and attributes.", "quantifier": "all schema trees, all groups and attribute groups, all five target languages", "why_tests_cant": "over all groups and all combinations of members, occurrence bounds and names", "anchors": ["genGo.go: GoGroup", "genGo.go: GoAttributeGroup", "genC.go: CGroup", "genJava.go: JavaAttributeGroup", "genRust.go: RustGroup", "genRust.go: RustAttributeGroup", "genTypeScript.go: TypeScriptGroup"]}
{"id": "C55", "title": "Simple types, lists, unions and global elements and attributes are declared with exactly their type", "statement": "Reading the declaration of a simple type, element or attribute back gives exactly the target type of what it refers to, plural if it is; a list is a collection of its item type; a union has exactly one member per member type, in sorted order, with the name and type of that member.", "quantifier": "all schema trees, all simple types, elements and attributes, all five target languages", "why_tests_cant": "over all types, names and documentation, and all trees they refer to", "anchors": ["genGo.go: GoSimpleType", "genGo.go: GoElement", "genC.go: CSimpleType", "genC.go: CAttribute", "genJava.go: JavaSimpleType", "genRust.go: RustSimpleType", "genTypeScript.go: TypeScriptSimpleType"]}
{"id": "C56", "title": "A generated file declares exactly the expected names", "statement": "The names read off the declaration lines of the complete generated file are the target names of the components, first of each schema name and in document order, numbered from the second use on (Go and C elements, Rust elements and attributes, and C synonyms carry no number). No documentation text, member or annotation adds a line that looks like a declaration.", "quantifier": "all schema trees, packages and documentation texts, all five target languages", "why_tests_cant": "over all documentation texts, names and histories of used names", "anchors": ["genGo.go: GenGo", "genC.go: GenC", "genJava.go: GenJava", "genRust.go: GenRust", "genTypeScript.go: GenTypeScript", "utils.go: genFieldComment"]}
{"id": "C57", "title": "Text influences nothing but documentation, for whole documents", "statement": "A document and the same document with all its text removed are parsed alike: both fail with the same error and the same effects on the shared registries, or both hand over trees that are equal once all documentation is deleted. In particular text early in a document cannot influence how anything after it is parsed.", "quantifier": "all documents, file systems, configurations and behaviours of nested parses", "why_tests_cant": "over all documents and all texts at all places", "anchors": ["xmlCharData.go: OnCharData", "parser.go: Parse"]}
{"id": "C58", "title": "Reading a generated file back gives the schema's declarations", "statement": "A complete generated file, read line by line, falls into one declaration per component to be declared, in document order and under the expected names; the head line of each declaration says what kind of thing the component is and which type it has or extends, and the members read from its body are exactly the members of the component with their names and types. Documentation, however many lines it has and whatever they look like, contributes nothing.", "quantifier": "all schema trees whose names and types are free of quotes, separators and white space, all packages and documentation texts, all five target languages", "why_tests_cant": "over all trees, names, types and documentation texts at once", "anchors": ["genGo.go: GenGo", "genC.go: GenC", "genJava.go: GenJava", "genRust.go: GenRust", "genTypeScript.go: GenTypeScript", "utils.go: genFieldComment"]}
{"id": "C59", "title": "From document to generated file", "statement": "If the tags of a document are those of a regular core schema, its names are spelled as XML names, and the output can be created, then Parse succeeds, adds exactly one file at the documented path, and that file reads back as the declarations of the schema: right names, right head lines, right members, in document order. Text, comments, white space and tags without a handler contribute nothing. Every name the schema introduces is declared.", "quantifier": "all documents of regular core schemas without imports and includes, all texts in them, file systems and target languages (for Go: the source handed to the formatter)", "why_tests_cant": "over all schemas of the fragment and all documents of each", "anchors": ["parser.go: Parse", "parser.go: GetValueType", "genGo.go: GenGo", "genC.go: GenC", "genJava.go: GenJava", "genRust.go: GenRust", "genTypeScript.go: GenTypeScript"]}
{"id": "C60", "title": "Reading the command line", "statement": "Every argument list of xgen consists of well-formed flags (-n v, -n=v, -n, -n=word, with one or two dashes) followed by an end (nothing, \"--\", \"-\" or an argument that is not a flag) or a mistake. In the first case every flag has the value of its last occurrence or its default, and what follows the flags is ignored. In the second case the process ends before doing anything, with code 2, or 0 for -help.", "quantifier": "all argument lists", "why_tests_cant": "the argument lists are unbounded; a positional input named by the usage text is silently ignored", "anchors": ["cmd/xgen/xgen.go: parseFlags", "cmd/xgen/xgen.go: main"]}
{"id": "C61", "title": "Generating from a directory", "statement": "Run on a directory whose files are documents of regular core schemas, the command ends with \"done\". It has then written exactly one file per schema, in the order of the components of the paths, at the same place below the output directory with the extension of the language, and each file reads as the declarations of its schema. The input directory must be spelled plainly, and in the current directory no entry may be hidden.", "quantifier": "all directory trees, schemas, languages and argument lists", "why_tests_cant": "directory trees and schemas are unbounded; the whole path from arguments to texts is involved", "anchors": ["cmd/xgen/xgen.go: main", "utils.go: GetFileList", "parser.go: Parse", "genGo.go: FileWithExtension"]}
{"id": "C62", "title": "References into imported schemas", "statement": "A schema of the core fragment imports schemas from files of its own directory; their import tags give the name space first, all use the same prefixes for them, import no further name spaces, and references lead to files of lower rank (to files of the same rank only if their types do not depend on other files). Then every type reference means: the built-in type; else what the file itself has declared so far; else what the file bound to the prefix declares under the local name, or, for a prefix without imported file, what the included files declare (see C63). Every imported file is translated and written at most once, before the schema, and every file that the schema or a written file needs is written. Text may occur anywhere and affects documentation only. Without these conditions references can change their meaning or files can be lost silently.", "quantifier": "all sets of schema files, documents, languages and initial states without knowledge of the files", "why_tests_cant": "the sets of files and documents are unbounded; the result depends on the order in which files refer to one another", "anchors": ["parser.go: GetValueType", "parser.go: Parse", "schema.go: prepareNSSchemaLocationMap", "schema.go: prepareLocalNameNSMap"]}
{"id": "C63", "title": "References into included schemas", "statement": "A schema of the core fragment includes schemas of its own directory; nothing is imported, included files include only files that the schema includes itself, and no two included files declare a name with different types. Then every type reference means: the built-in type; else what the schema itself has declared so far under the local name; else the type that an included file declares; else the local name. Text may occur anywhere and affects documentation only. Parse succeeds and writes exactly one file, that of the schema. The result does not depend on the order in which Go iterates over the map of includes.", "quantifier": "all such sets of files, target languages and iteration orders of the include map", "why_tests_cant": "Go randomises map iteration; a test sees one order per run and finitely many sets of files. The sets that the conditions exclude behave differently from run to run.", "anchors": ["parser.go: GetValueType", "parser.go: Parse", "xmlInclude.go: OnInclude", "utils.go: getBasefromSimpleType"]}
{"id": "C64", "title": "Rewording the documentation of a set of schemas changes only comments", "statement": "Take two projects with the same paths, where each file differs from its counterpart only in character data, comments, processing instructions and unhandled tags: in the main schema and in everything it imports or includes. Then Parse ends alike in both (success, the same error, or the same abnormal end). The same files are read in the same order, the same files are written, every shared table is the same, and both contents of a written file are generated from trees that differ in documentation only. For Go this supposes that the formatter's acceptance does not depend on documentation.", "quantifier": "all pairs of such projects, options and starting states", "why_tests_cant": "Text can be put at any place of any file of any project; one of the handlers looking at text, or one nested parse leaking it, would show only for particular documents.", "anchors": ["parser.go: Parse", "parser.go: GetValueType", "xmlCharData.go: OnCharData", "genGo.go: GenGo"]}
{"id": "C65", "title": "From a set of schemas to the generated files", "statement": "For a set of schema files as in C62 whose names are spelled as XML names, if the outputs can be created (and the Go formatter accepts its input), then Parse succeeds and adds exactly one file for every imported schema that is needed and one for the schema, at the documented paths; each file reads back as the declarations of its schema, with all references resolved as in C62: right names, right head lines, right members, in document order. Every name a schema introduces is declared in its file. Text, comments and tags without a handler contribute nothing.", "quantifier": "all sets of documents of regular core schemas with imports and includes as in C62, all texts in them, all target languages (for Go: the source handed to the formatter; for TypeScript: enumeration values without quotes, equal signs and backslashes)", "why_tests_cant": "over all sets of schemas of the fragment and all documents of each", "anchors": ["parser.go: Parse", "parser.go: GetValueType", "genGo.go: GenGo", "genC.go: GenC", "genJava.go: GenJava", "genRust.go: GenRust", "genTypeScript.go: GenTypeScript"]}
{"id": "C66", "title": "References into imported schemas that cannot be read are reported", "statement": "If a schema refers, through a prefix bound to an imported name space, to a name that is neither built-in nor mentioned as a name in the schema, and the file of the import cannot be read, then Parse does not succeed. Holds when the file does not exist; fails when it exists but cannot be opened, and when the error occurs in the parse of the imported file.", "quantifier": "all file systems, options, registries, and documents with any tags before, between and after the root tag, the import tag and the reference; all kinds of references; prefixes and places used consistently in all files", "why_tests_cant": "the reference may stand in any tag anywhere in the document, after arbitrary nested parses that share the maps of name spaces", "anchors": ["parser.go: GetValueType", "schema.go: prepareNSSchemaLocationMap", "schema.go: prepareLocalNameNSMap"]}
{"id": "C67", "title": "Documentation becomes the comment above the declaration", "statement": "The documentation of a declaration is kept with its component and becomes the comment above the declaration generated for it. Holds for text right inside a top-level declaration other than a group, as annotation and documentation tags put it: Parse builds the components with exactly this documentation (the last piece that is not blank, trimmed), and in the written file the declaration under the name of the component begins with a comment made of the name and the documentation, line by line, if the name was not taken by an earlier component and the language has comments for components of this kind. Fails for groups (documentation lost), for elements with an anonymous complex type (not shown), and for members (the documentation of an element, enumeration value or grouped attribute replaces that of the declaration around it).", "quantifier": "all regular core schemas, all texts inside their top-level declarations, all documents with white space, comments and tags without handler around them, all five languages", "why_tests_cant": "all schemas of the fragment and all texts; what is shown depends on earlier declarations of the same name", "anchors": ["xmlCharData.go: OnCharData", "utils.go: genFieldComment", "genGo.go: GenGo", "genC.go: GenC", "genJava.go: GenJava", "genRust.go: GenRust", "genTypeScript.go: GenTypeScript"]}
{"id": "C68", "title": "Elements with anonymous simple types", "statement": "An element whose type is an anonymous simple type gets the type that is restricted, stands once at its place - in the tree or among the elements of its complex type - and the rest of the schema is read as if it were an ordinary element. Holds for restrictions of built-in types that have at least one facet, at the top level and inside named complex types, as long as no later declaration is affected by what such elements leave on the stacks of the parser. Fails for restrictions without facets, lists and unions (the element keeps its own name as type; a complex type around it is cut short and the tree gets a hole), inside groups (the group is lost), inside anonymous complex types (the outer element is lost), for restrictions, lists and groups declared later (lost, given foreign values, or the element repeated), and in Java for anyURI (looked up several times, it becomes String instead of QName).", "quantifier": "all regular core schemas and all documents with white space, comments and tags without handler anywhere; all five languages", "why_tests_cant": "whether the element is read correctly depends on everything declared before and after it", "anchors": ["xmlElement.go: OnElement", "xmlElement.go: EndElement", "xmlSimpleType.go: OnSimpleType", "xmlSimpleType.go: EndSimpleType", "xmlRestriction.go: OnRestriction", "xmlRestriction.go: EndRestriction", "parser.go: GetValueType"]}
{"id": "C69", "title": "Order of attributes", "statement": "In whatever order the attributes of tags are written, in the schema and in every file it imports or includes, Parse has the same outcome: the same tree or error, the same maps of locations and included files, and the same files with the same contents. Holds for tags without repeated attributes whose references have neither name nor type and whose maxOccurs is legal. Fails for import tags: a schemaLocation written before its namespace is stored under the empty name, so the imported file is not read and its types are not found.", "quantifier": "all worlds (files, failing operations, formatter, order of map iteration), options, starting states and languages; all documents, legal or not, with any tidy tags reordered", "why_tests_cant": "a tag with n attributes has n! orders, and every handler loops over the attributes with state that later attributes may see", "anchors": ["parser.go: Parse", "parser.go: GetValueType", "xmlElement.go: OnElement", "xmlAttribute.go: OnAttribute", "xmlAttributeGroup.go: OnAttributeGroup", "xmlGroup.go: OnGroup", "xmlImport.go: OnImport", "xmlInclude.go: OnInclude", "xmlSchema.go: OnSchema", "xmlExtension.go: OnExtension", "xmlRestriction.go: OnRestriction", "xmlList.go: OnList", "xmlUnion.go: OnUnion"]}
{"id": "C70", "title": "Order of declarations", "statement": "Two documents with the same top-level declarations in different orders give files with the same declarations, in another order. Holds if simple types, attributes and elements stand before the simple types, attributes, elements and extensions made from them (their uses as types of members and items of lists may stand anywhere), declarations have different names and targets, and no declaration is named like a target type. Fails otherwise: a member may get a pointer to an intermediate type, an extension embeds a type instead of a value, a union refers to undeclared structures, a type with an enumeration is lost after an anonymous restriction, numbers change owners.", "quantifier": "all permutations of all regular core schemas, documented or not, in all five languages, all worlds and configurations", "why_tests_cant": "n declarations have n! orders, and the resolution of each reference depends on everything declared before it", "anchors": ["parser.go: GetValueType", "utils.go: getBasefromSimpleType", "parser.go: Parse", "xmlComplexType.go: EndComplexType", "xmlElement.go: OnElement", "xmlExtension.go: OnExtension", "xmlUnion.go: OnUnion", "genGo.go: GoComplexType", "genC.go: CComplexType", "genJava.go: JavaComplexType", "genRust.go: RustComplexType", "genTypeScript.go: TypeScriptComplexType"]}
{"id": "C71", "title": "No dangling references", "statement": "If every reference in a schema (type, base, itemType, memberTypes, ref) is to a built-in type or to a component of the schema of the right kind, every type mentioned in the generated file (types of members, targets of type declarations, superclasses) is predefined in the target language, declared in the same file, or made from such a type by the pointers, slices, lists, vectors, options and unions with null of that language. Holds for TypeScript; for C without types called enum; for Go without types called interface and without names of which nothing is left; for Java without attribute groups; for Rust if no element or attribute is named like a type. Fails otherwise.", "quantifier": "all core schemas in which references have targets, documented or not, in all five languages, all worlds and configurations", "why_tests_cant": "every reference passes through two name translations, deduplication and numbering of declarations, and resolution against everything declared before it; the number of combinations is unbounded", "anchors": ["parser.go: GetValueType", "utils.go: getBasefromSimpleType", "genGo.go: genGoFieldType", "genC.go: genCFieldType", "genJava.go: genJavaFieldType", "genRust.go: genRustFieldType", "genTypeScript.go: genTypeScriptFieldType", "genJava.go: JavaAttributeGroup", "genRust.go: RustElement"]}
{"id": "C72", "title": "Declared before use in C", "statement": "If every reference in a schema is to a built-in type or to an earlier component, and no element, attribute or restriction is named like an earlier type or a target type, every type mentioned by a declaration of the generated C file is predefined or declared further up in the file. Without these conditions it fails: declarations are not sorted, a type may have a member of its own type, and an element named like an earlier type replaces it in the uses before it.", "quantifier": "all core schemas in that order, documented or not, all worlds and configurations", "why_tests_cant": "declarations are deduplicated and numbered, names are resolved both while parsing and while generating, anonymous types are declared before their owners at any depth; the number of combinations is unbounded", "anchors": ["genC.go: GenC", "genC.go: CComplexType", "genC.go: CSimpleType", "parser.go: GetValueType", "utils.go: getBasefromSimpleType", "xmlElement.go: OnElement"]}
{"id": "C73", "title": "Types have a finite size", "statement": "No generated type contains itself by value, directly or through others: every declared type consists of predefined types, references, and types that consist of such types. Holds in Go for all schemas in which references have targets and names begin with a letter, however types refer to each other, since declared types only occur behind pointers and in slices. In C and Rust it holds for schemas in order (references go to earlier components) in which names stay different; recursive types have no size there, in Rust unless a vector is in between. A name that begins with an underscore can hide a predefined type of Go.", "quantifier": "all core schemas without dangling references, documented or not (Go); all core schemas in order (C, Rust); all worlds and configurations", "why_tests_cant": "chains and cycles of types are of any length and pass through names resolved while parsing and again while generating", "anchors": ["genGo.go: genGoFieldType", "genGo.go: genGoFieldName", "genC.go: genCFieldType", "genRust.go: genRustFieldType", "genRust.go: RustComplexType", "genGo.go: GoComplexType"]}
{"id": "C74", "title": "Members of a declaration have different names", "statement": "In every generated struct or class the members have different names, provided the names in the schema differ in more than case and punctuation, and none looks like a name the generators make up (XMLName and Value, the suffix Attr, the name of the base type where it is embedded). Repeated elements and group references of one name are merged first (not in groups). In Rust attributes and elements share one name space, and keywords get a suffix. Each proviso is needed.", "quantifier": "all trees with such names; all core schemas with such names, documented or not, all worlds and configurations, all five languages", "why_tests_cant": "names are arbitrary strings, and collisions arise between kinds of members through different name translations", "anchors": ["genGo.go: GoComplexType", "genGo.go: genGoFieldName", "genC.go: genCFieldName", "genJava.go: genJavaFieldName", "genRust.go: genRustFieldName", "genTypeScript.go: genTypeScriptFieldName", "utils.go: ToSnakeCase", "xmlElement.go: OnElement"]}
{"id": "C75", "title": "Documents survive the generated Go types", "statement": "A document that fits a complex type of its name can be read into the generated Go struct with xml.Unmarshal, and xml.Marshal then writes a document that says the same: name, text, and for every name the same attributes and elements in the same order; only optional attributes with zero values may be missing, and zero values of absent elements or attributes may have been added. If there are none of these and the document is in the order of the fields, it is written exactly as it was read (what xml_test.go demands of one document). Provided: no groups or attribute groups in the types used, element types that are simple, lists, or complex types not named differently from the element unless their name is a Go name, and no name clashes. Otherwise contents are lost or cannot be read: groups, unions, lists of numbers, untyped attributes, repeated bytes, types with lower-case names, global elements of named types.", "quantifier": "all trees whose components have distinct Go names, all complex types (with any chain of extensions), all documents that fit, all ways basic values are read and written", "why_tests_cant": "documents and types nest without bound; reading and writing depend on how tags, embedded structs, pointers and slices interact in every generated struct", "anchors": ["genGo.go: GoComplexType", "genGo.go: GoSimpleType", "genGo.go: GoElement", "genGo.go: genGoFieldType", "genGo.go: genGoFieldName", "xml_test.go: TestGeneratedGo"]}
{"id": "C76", "title": "Java files import what they use", "statement": "Every annotation, constant class and list type used on a line of a generated Java file is imported by that file.", "quantifier": "all trees whose names contain no newlines; all documents of the core language", "why_tests_cant": "which classes a file uses depends on the components of the schema, while the imports are a fixed text", "anchors": ["genJava.go: GenJava", "genJava.go: JavaComplexType", "genJava.go: JavaSimpleType"]}
{"id": "C77", "title": "Documents valid against a schema survive the generated Go types", "statement": "A document that is valid against the schema can be read into the struct that the Go file declares for its root element, and what is then written has the same text, attributes and elements.", "quantifier": "all schemas with sequences, choices, all-groups, extensions, lists, restrictions and anonymous types in which elements that may be repeated are declared so (Suitable), all valid documents", "why_tests_cant": "the fixtures contain one document for one schema; neither the schemas nor the documents valid against them are finite", "anchors": ["parser.go: Parse", "xmlElement.go: OnElement", "xmlChoice.go: OnChoice", "genGo.go: GoComplexType", "xml_test.go: TestGeneratedGo"]}
{"id": "C78", "title": "Types are wide enough for their values", "statement": "A field generated for a built-in type of XML Schema can hold every value of that type. Holds for exactly the types that are not listed: integers without bounds and decimals fail in all languages; in Go also time (time.Time reads RFC 3339), in TypeScript 64-bit integers, in Java unsigned integers, double and anyURI, in Rust byte (u8), date and dateTime (u8), in C 64-bit integers, double, unsignedByte and everything that is a single char.", "quantifier": "all 49 names of the table, all five languages, all values, all trees and states of the parser", "why_tests_cant": "the value spaces are infinite or too large to enumerate; the fixtures contain one value per type at most and none near the bounds", "anchors": ["utils.go: BuildInTypes", "utils.go: getBuildInTypeByLang", "parser.go: GetValueType"]}
{"id": "C79", "title": "URLs and files", "statement": "Import tags whose location is an absolute URL are left out; all others are followed as file names. A location that isValidURL takes for a URL begins with a scheme, ://, and a non-empty authority; every ordinary URL (scheme, host name, optional port, path, query) is recognised; a location without :// never is.", "quantifier": "all strings", "why_tests_cant": "isValidURL combines two parsers of net/url whose behaviour differs on fragments, escapes, ports and user information; the set of locations is infinite", "anchors": ["utils.go: isValidURL", "schema.go: prepareNSSchemaLocationMap", "parser.go: GetValueType"]}
{"id": "C80", "title": "Generated Go files pass the checks of a compiler on declarations", "statement": "In a generated Go file the names of types and fields are exported identifiers, no name is declared twice in the file or in a struct, every type mentioned is declared or predefined, no type contains itself, what is embedded is neither a pointer nor an interface, every package mentioned is imported and every import is used. Holds for schemas with ASCII names that satisfy the conditions stated; no import is ever unused, and the condition under which none is missing is exact.", "quantifier": "all schemas, all packages and states before the run", "why_tests_cant": "each check depends on the combination of all declarations of a schema; the fixtures are compared as text and never compiled", "anchors": ["genGo.go: gen", "genGo.go: GoComplexType", "genGo.go: GoSimpleType", "genGo.go: GoGroup"]}
{"id": "C81", "title": "Well-formed XML text is read as the document it is", "statement": "For every well-formed XML document, the tokens the parser works on are those of the document: elements by their local names whatever prefix they are written with, attributes with the namespaces in scope and with values in which references are resolved, text with line ends as \\n. Layout of tags, kinds of quotes, references, CDATA sections, comments, instructions, an XML declaration and a document type with nested declarations make no difference.", "quantifier": "all well-formed documents of the grammar stated (elements, attributes, namespaces, character data, references, CDATA, comments, instructions, XML declaration, DOCTYPE) and all layouts", "why_tests_cant": "one fixture in one layout; the ways to write a document are unbounded", "anchors": ["parser.go: Parse (xml.NewDecoder, decoder.Token)"]}
{"id": "C82", "title": "Any text gives tokens that nest; a text that ends early is read up to there", "statement": "Whatever a file contains, every end tag the parser sees closes the innermost open element, and elements have names. If a file ends early or goes on differently, the tokens up to there are the same, except for text at the very end, and no error is reported. Projects whose files differ in layout, text, comments and unhandled tags only are translated alike, with no assumption on the files; a document of a regular core schema is translated as C59 says however it is written down.", "quantifier": "all texts, all places of cutting, all projects of texts, file systems and configurations", "why_tests_cant": "over all texts, damaged ones included", "anchors": ["parser.go: Parse (token, _ := decoder.Token())", "utils.go: callFuncByName"]}
{"id": "C83", "title": "The choice of namespace prefixes is immaterial", "statement": "Schemas that differ only in the prefixes they bind to namespaces, and accordingly in the prefixes of the types they name, are translated alike.", "quantifier": "all schemas, all choices of prefixes, all languages", "why_tests_cant": "each fixture uses one choice of prefixes", "anchors": ["parser.go: GetValueType", "xmlSchema.go: OnSchema", "utils.go: trimNSPrefix", "utils.go: getNSPrefix"]}
{"id": "C84", "title": "A run changes only files with the extension of the language, and reading is not disturbed by writing", "statement": "Every file the command writes has the extension of the chosen language, so every existing file with another name is afterwards as it was.  If nothing the command looks up lies where it writes, the run on the disk as it changes is the run on the disk as it was at the start.", "quantifier": "all file systems, command lines, working directories and import graphs", "why_tests_cant": "the tests write into directories of their own and never look at the inputs again", "anchors": ["parser.go: Parse", "parser.go: GetValueType", "genGo.go: FileWithExtension", "cmd/xgen/xgen.go: main", "utils.go: GetFileList"]}
{"id": "C85", "title": "Running the command again changes nothing", "statement": "Run a second time on the disk left by the first run, the command ends the same way and leaves the same files with the same contents.", "quantifier": "all file systems, command lines and working directories", "why_tests_cant": "each test runs the tool once", "anchors": ["cmd/xgen/xgen.go: main", "utils.go: GetFileList", "parser.go: Parse"]}
{"id": "C86", "title": "What is written from the generated Go types is valid again", "statement": "Let a document be valid against the schema.  Read into the Go types generated from the schema and written again by encoding/xml, it is a document that is valid against the schema and says what the first one said.", "quantifier": "all schemas of local types with extensions and repeated contents, all valid documents, all interpretations of the built-in types", "why_tests_cant": "the tests read one document and never validate what is written; validity quantifies over all documents", "anchors": ["genGo.go: GoComplexType", "genGo.go: genGoFieldType", "xmlComplexType.go: OnComplexType", "xmlChoice.go: OnChoice", "xmlElement.go: OnElement"]}
{"id": "C87", "title": "A second round through the generated Go types changes nothing", "statement": "Let a document be valid against a schema without groups, attribute groups and unions whose names lead to different Go names (the schemas of C77).  Read into the Go types generated from the schema and written by encoding/xml, it becomes a document that comes out unchanged when it is read and written again, provided that the zero values of the built-in types can be read.", "quantifier": "all such schemas, all valid documents, all interpretations of the built-in types", "why_tests_cant": "xml_test.go reads and writes one document; which documents are fixed points of reading and writing depends on the schema and on every combination of missing and empty parts", "anchors": ["xml_test.go: TestGeneratedGo", "genGo.go: GoComplexType", "genGo.go: genGoFieldType"]}
{"id": "C88", "title": "Adding a declaration leaves the rest of the generated file as it was", "statement": "If components are added to a schema that no reference of the old components leads to, and whose names are not the names of components after them, neither in the schema nor in the target language, the generated source is the old one with declarations inserted; in Go, imports may be added too, and none is lost.  In particular, declarations with new names added at the end of a schema without dangling references only add text at the end of the output.", "quantifier": "all five languages, all trees, all places of insertion; all regular documented schemas without dangling references and all declarations added at the end", "why_tests_cant": "the golden files fix the output of single schemas; how the output of two schemas that differ in a declaration compares is a relation between runs that no test states, and it fails for names that occur in no test (an element named `string`)", "anchors": ["utils.go: getBasefromSimpleType", "utils.go: getBuildInTypeByLang", "genGo.go: fieldNameCount", "genGo.go: GenGo", "genTypeScript.go: GenTypeScript"]}
{"id": "C89", "title": "Documentation has no influence on the code", "statement": "Two projects whose files differ only in text, comments and tags without handlers are translated to files at the same paths with the same lines of code, where blank lines and comment lines are not code, and the command ends in the same way.  For Go this supposes that the formatter makes the same code of the same code.", "quantifier": "all five languages, all projects with imports and includes, all flags, all changes of text in all files", "why_tests_cant": "documentation is arbitrary text: it may contain line breaks, comment delimiters and code; tests fix the output for a few texts", "anchors": ["utils.go: genFieldComment", "genGo.go: GenGo", "genC.go: GenC", "genJava.go: GenJava", "genRust.go: GenRust", "genTypeScript.go: GenTypeScript", "xmlCharData.go: OnCharData", "cmd/xgen/xgen.go: main"]}
{"id": "C90", "title": "Nothing in the generated files is invented, and nothing can break out of its place", "statement": "Whatever files the command writes, and however it ends, they are written from trees in which every name is empty, the value of a name, ref or base attribute of some file, or a member of a union; every type is a target type of the table or such a reference with or without its prefix; and every enumeration value is the value of an attribute.  If the attributes of all files are spelled as XML Schema demands, every file written in Go (before formatting), C, Java or Rust reads as exactly the declarations and members of such a tree.", "quantifier": "all projects of any number of files with imports and includes, all flags, all orders of map iteration, all outcomes including errors and panics", "why_tests_cant": "the trees of arbitrary projects pass through nested parsers, shared maps and two lookups per reference; that no step mixes in anything else is a statement about all of them", "anchors": ["parser.go: Parse", "parser.go: GetValueType", "utils.go: getBasefromSimpleType", "utils.go: getBuildInTypeByLang", "xmlElement.go: OnElement", "xmlUnion.go: OnUnion", "xmlRestriction.go: OnRestriction", "cmd/xgen/xgen.go: main"]}
{"id": "C91", "title": "The encoding of a file is immaterial", "statement": "Two files with the same text without further XML declarations, each behind an XML declaration that names the encoding in which the text is stored (UTF-8, ISO-8859-1 without control characters beyond ASCII, or any other that charset.NewReaderLabel knows), deliver the same tokens, so that parse and command do the same for projects that differ in encodings only.  Any bytes whatsoever deliver tokens that nest, with names and allowed characters.  Of a file that begins with the mark of UTF-16 or names an unknown encoding nothing is read, and no error is reported.", "quantifier": "all texts, all sequences of bytes, all declarations, all tables of encodings, all projects and flags", "why_tests_cant": "every character and every sequence of bytes, valid or not, is an input; the test schemas are in ASCII", "anchors": ["parser.go: Parse"]}
{"id": "C92", "title": "A run can be interrupted and taken up again", "statement": "Wherever the command is interrupted (between files, while directories are made, after a file was created, in the middle of a text), what it looks at is as before, every file it has written to is whole but at most one, of which there is a beginning; and the same command run again does exactly what an uninterrupted run does and leaves the disk as that would at every path, provided nothing is written where something is looked at.", "quantifier": "all disks, working directories, flags, all moments of interruption", "why_tests_cant": "every point between any two bytes written is a crash point; a test that kills the process tries a few of them", "anchors": ["cmd/xgen/xgen.go: main", "parser.go: Parse", "utils.go: PrepareOutputDir", "genGo.go: GenGo", "genC.go: GenC", "genJava.go: GenJava", "genRust.go: GenRust", "genTypeScript.go: GenTypeScript"]}
{"id": "C93", "title": "Nothing that happens elsewhere on the disk has influence on a run", "statement": "Whatever other processes do during a run at paths the run does not look at, and however much of each text the disk takes, the run is the same: the same exit and the same files with the same texts handed to the operating system.  A run that ends well has left all its files whole.", "quantifier": "all disks, all histories of changes at other paths, all amounts of text stored, all flags", "why_tests_cant": "tests run alone on a disk with room; the histories of other processes cannot be enumerated", "anchors": ["cmd/xgen/xgen.go: main", "parser.go: Parse", "genGo.go: GenGo", "genC.go: GenC", "genJava.go: GenJava", "genRust.go: GenRust", "genTypeScript.go: GenTypeScript"]}
{"id": "C94", "title": "The number of files read is bounded", "statement": "For each input the command reads at most every file once and, for each name looked up in a file, once more than there are schemaLocation attributes: however the schemas import, include and refer to each other, the number of files read is at most quadratic in the size of the project, not exponential.  A parse that only extracts reads one file.", "quantifier": "all projects, all graphs of imports and includes, all orders in which included files are visited", "why_tests_cant": "the worst case depends on the graph of imports and includes and the places of references; it is a bound on all executions", "anchors": ["parser.go: Parse", "parser.go: GetValueType", "cmd/xgen/xgen.go: main"]}
{"id": "C95", "title": "What the command prints, and what it blames", "statement": "Every run prints exactly one message, with the exit status that belongs to it: the help, the version, what is wrong with the flags, that the input does not exist, \"done\", that a directory cannot be made, or the first file that fails with the error of that file; nothing only after a panic or when the package flag has ended the process. \"done\" is printed if and only if all files have been processed. An error always has its reason in the file that is named (it does not exist, cannot be opened, has a maxOccurs that is no number, its output cannot be created or formatted) or in a schema it refers to that does not exist; the errors of other files are never passed on.", "quantifier": "all argument lists, disks, directory trees, schemas, texts of errors", "why_tests_cant": "error paths depend on combinations of arguments, disks and nested parses that tests do not set up; that no error of a nested parse is passed on is about all schemas", "anchors": ["cmd/xgen/xgen.go: main", "cmd/xgen/xgen.go: parseFlags", "parser.go: Parse", "parser.go: GetValueType"]}
{"id": "C96", "title": "Generated Go files are Go", "statement": "Read by the lexical rules and the grammar of Go (tokens, automatic semicolons, package clause, import declaration, type declarations), the Go file generated for a schema, before it is formatted, is a syntactically correct file: it has the package asked for, the imports that are needed, and exactly one declaration per component to be declared, with the fields it should have; documentation, whatever it contains, stays in comments. A formatter that takes all Go files therefore never fails.", "quantifier": "all schemas with ASCII names and without dangling references, all documentation without the characters Go forbids, all packages", "why_tests_cant": "the claim is about every name and every documentation text; tests look at a few outputs, and the formatter that would find errors is run on these only", "anchors": ["genGo.go: gen", "genGo.go: GoSimpleType", "genGo.go: GoComplexType", "genGo.go: GoGroup", "genGo.go: GoAttributeGroup", "genGo.go: GoElement", "genGo.go: GoAttribute", "utils.go: genFieldComment"]}
{"id": "C97", "title": "Documentation is text of the file itself", "statement": "Whatever other files are read while a file is parsed, each documentation in the resulting tree, of a component or of one of its members, is empty or exactly one piece of text of the file itself without the white space around it: texts are not joined or cut, and nothing comes from other files.", "quantifier": "all token sequences, worlds, shared states and configurations", "why_tests_cant": "documentation can be assigned at any depth and in any state of seven stacks, and nested parsers run in between", "anchors": ["xmlCharData.go: OnCharData", "xmlRestriction.go: EndRestriction", "xmlElement.go: OnElement", "parser.go: Parse"]}
{"id": "C98", "title": "Documentation stays in comments by the rules of the target languages", "statement": "Read by the lexical rules of the target language (line comments, block comments, strings, joined lines in C, Unicode escapes in Java, the characters that end lines), what is left of a generated C, Java, Rust or TypeScript file besides comments and blank lines does not depend on documentation.", "quantifier": "all projects, all names and all documentation texts", "why_tests_cant": "what leaves a comment depends on rules of four languages about single characters anywhere in texts of any length", "anchors": ["utils.go: genFieldComment", "genC.go: GenC", "genJava.go: GenJava", "genRust.go: GenRust", "genTypeScript.go: GenTypeScript", "xmlCharData.go: OnCharData"]}
{"id": "C99", "title": "Generated Rust files are Rust source files", "statement": "A generated Rust file follows the lexical rules and the grammar of Rust, and what it declares is the header's items and then one struct with its derive attribute for every component to be declared, with one attributed field for every member, of the type it should have; documentation is all in comments.", "quantifier": "all schemas and all documentation texts", "why_tests_cant": "whether a text is Rust depends on every name and reference in schemas of any size; tests compare with a few expected files", "anchors": ["genRust.go: GenRust", "genRust.go: RustComplexType", "genRust.go: RustSimpleType", "genRust.go: RustGroup", "genRust.go: RustAttributeGroup", "genRust.go: RustElement", "genRust.go: RustAttribute", "genRust.go: genRustFieldName", "genRust.go: genRustFieldType", "genRust.go: genRustStructName"]}
{"id": "C100", "title": "Generated Java files are Java source files", "statement": "A generated Java file follows the lexical rules and the grammar of Java, and what it declares is the package, the imports and then one class for every component to be declared, with its annotations, the class it extends, and one annotated field for every member, of the type it should have; documentation is all in comments.", "quantifier": "all schemas, packages and documentation texts", "why_tests_cant": "whether a text is Java depends on every name, reference and comment in schemas of any size; tests compare with a few expected files", "anchors": ["genJava.go: GenJava", "genJava.go: JavaComplexType", "genJava.go: JavaSimpleType", "genJava.go: JavaGroup", "genJava.go: JavaAttributeGroup", "genJava.go: JavaElement", "genJava.go: JavaAttribute", "genJava.go: genJavaFieldName", "genJava.go: genJavaFieldType"]}
{"id": "C101", "title": "Generated TypeScript files are TypeScript source files", "statement": "A generated TypeScript file follows the lexical rules and the grammar of TypeScript, and what it declares is one type, class or enumeration for every component to be declared, with the class it extends, one field for every member, of the type it should have, and one member for every enumeration value; documentation is all in comments.", "quantifier": "all schemas, enumeration values and documentation texts", "why_tests_cant": "whether a text is TypeScript depends on every name, reference, enumeration value and comment in schemas of any size; tests compare with a few expected files", "anchors": ["genTypeScript.go: GenTypeScript", "genTypeScript.go: TypeScriptComplexType", "genTypeScript.go: TypeScriptSimpleType", "genTypeScript.go: TypeScriptGroup", "genTypeScript.go: TypeScriptAttributeGroup", "genTypeScript.go: TypeScriptElement", "genTypeScript.go: TypeScriptAttribute", "genTypeScript.go: genTypeScriptFieldName", "genTypeScript.go: genTypeScriptFieldType"]}
{"id": "C102", "title": "Generated C files are C source files", "statement": "A generated C file follows the lexical rules and the grammar of C, and what it declares is one type definition for every component to be declared: a synonym, or a structure with one member for every member of the component, of the type and with the brackets it should have; documentation is all in comments.", "quantifier": "all schemas and documentation texts", "why_tests_cant": "whether a text is C depends on every name, reference and comment in schemas of any size; tests compare with a few expected files", "anchors": ["genC.go: GenC", "genC.go: CComplexType", "genC.go: CSimpleType", "genC.go: CGroup", "genC.go: CAttributeGroup", "genC.go: CElement", "genC.go: CAttribute", "genC.go: genCFieldName", "genC.go: genCFieldType", "genC.go: innerArray"]}
{"id": "C103", "title": "All files generated for a project are source files", "statement": "For a project of schemas that import and include one another, a file is written for the schema and for every imported schema it needs, and each of them follows the grammar of its language and declares what its schema says; for Go this holds of what the formatter is given.", "quantifier": "all projects, languages, packages and texts in the schemas", "why_tests_cant": "the text of a file depends on references into other files, which may be resolved in any order, and on every name and text in all of them; tests have single files and compare with expected ones", "anchors": ["parser.go: Parse", "parser.go: GetValueType", "genGo.go: GenGo", "genC.go: GenC", "genJava.go: GenJava", "genRust.go: GenRust", "genTypeScript.go: GenTypeScript"]}
{"id": "C104", "title": "No dangling references between the files of a project", "statement": "If every reference of the schemas of a project is to a built-in type, to a component of its own schema, of an imported schema or to a type that an included schema derives from a built-in one, then every type that the generated files mention is predefined in the target language or declared in one of these files.", "quantifier": "all projects, languages, packages and texts in the schemas", "why_tests_cant": "a type of an imported schema is looked up in its translation, in its declarations alone or left as a name, depending on the order of references, and the file that declares it is written only if something asks for it; tests check single schemas", "anchors": ["parser.go: Parse", "parser.go: GetValueType", "utils.go: getBasefromSimpleType", "xmlImport.go: OnImport", "xmlInclude.go: OnInclude", "genGo.go: GenGo", "genC.go: GenC", "genJava.go: GenJava", "genRust.go: GenRust", "genTypeScript.go: GenTypeScript"]}
{"id": "C105", "title": "The Go files of a project are one package", "statement": "The Go files generated for a project of several schemas have the same package clause, no type is declared twice in any of them, every type they mention is in one of them, all types have a finite size, what is embedded is neither a pointer nor an interface, names are exported identifiers, no struct has two fields of one name, and every file imports exactly the packages it mentions.", "quantifier": "all projects whose names are ASCII and stay different in Go, all texts in the schemas", "why_tests_cant": "tests translate single schemas and never compile the result; whether files fit together depends on all names and bases of all schemas and on which of them are written", "anchors": ["parser.go: Parse", "parser.go: GetValueType", "genGo.go: GenGo", "genGo.go: GoSimpleType", "genGo.go: GoComplexType", "genGo.go: genGoFieldName", "genGo.go: genGoFieldType"]}
{"id": "C106", "title": "Fetching a schema", "statement": "fetchSchema gives exactly the bytes that the server sends, however they are cut into pieces, or an error; it leaves no body open, whatever the server does; a schema that the server does not have is reported as an error.", "quantifier": "all servers, URLs, statuses and bodies", "why_tests_cant": "tests do not reach the network and call this function nowhere; failures in the middle of a transfer cannot be arranged", "anchors": ["utils.go: fetchSchema", "schema.go: prepareNSSchemaLocationMap"]}
{"id": "C107", "title": "From the arguments and the bytes on the disk to source files", "statement": "When the arguments name a schema, an output and a supported language, and the disk has that schema and those it imports and includes as XML documents in encodings that are known, the command prints \"done\" and has written, at the documented paths, a file for the schema and for every imported schema that it needs, each of which a reader of the language accepts and which declares exactly the components of its schema; the schemas stay as they were.", "quantifier": "all argument lists, disks, encodings, layouts of the XML, projects of schemas, languages", "why_tests_cant": "tests call Parse on a few fixed UTF-8 files and compare texts; the combination of arguments, encodings, layout and imports has no end", "anchors": ["cmd/xgen/xgen.go: main", "cmd/xgen/xgen.go: parseFlags", "parser.go: Parse", "parser.go: GetValueType", "utils.go: GetFileList"]}
{"id": "C108", "title": "From the arguments and the bytes in a directory to source files", "statement": "When the arguments name a directory, an output directory and a supported language, and every file below the input directory is, with the schemas it imports and includes, a set of XML documents on the disk, the command prints \"done\" and has written, for each schema in the order of the places, a file for every imported schema that it needs and a file for itself at the same place below the output directory; a reader of the language accepts each of them, and each declares exactly the components of its schema; the schemas stay as they were.", "quantifier": "all argument lists, directories, disks, encodings, layouts of the XML, projects of schemas (also with schemas in common), languages", "why_tests_cant": "tests call Parse on a few fixed files; what is left in the shared maps by one schema when the next one is parsed depends on all of the directory", "anchors": ["cmd/xgen/xgen.go: main", "cmd/xgen/xgen.go: parseFlags", "parser.go: Parse", "parser.go: GetValueType", "utils.go: GetFileList"]}
{"id": "C109", "title": "A folder of schemas gives the same code wherever it lies", "statement": "When the input folder is moved or copied elsewhere with all that is in it, and no schemaLocation in it leads out of the folder, the command with the same options otherwise ends in the same way and writes the same number of files with the same texts in the same order; each file has the same path as before, or it is written for a schema of the folder at that schema's path below the output directory. A location that leads out of the folder can make the run fail in the other place.", "quantifier": "all disks, folders, schemas in them with imports and includes among subfolders, places of the folder (relative or absolute), languages, orders of map iteration", "why_tests_cant": "tests read schemas from one fixed directory; that no path takes part in what is generated depends on every use of a path in the parser, and on the lexical treatment of '..' for all locations", "anchors": ["parser.go: Parse", "parser.go: GetValueType", "cmd/xgen/xgen.go: main", "utils.go: GetFileList"]}
{"id": "C110", "title": "The files generated for different languages declare the same", "statement": "If in each content model of a schema elements of one name have one type, as XSD demands (Element Declarations Consistent), then what the schema declares is a function of the schema alone: the trees parsed for two languages differ in types and documentation only, and the files for C, Java, Rust, Go and TypeScript declare the same components one by one, in the same order, each under the name its language gives it, with members for the same attributes, elements, groups and union members. Without that condition the languages disagree on the number of members.", "quantifier": "all core schemas with any white space, comments and documentation, all pairs of languages, all configurations", "why_tests_cant": "the tests keep five expected outputs per schema without comparing them with each other; whether elements are merged depends on comparing target types, which are tables per language", "anchors": ["xmlElement.go: OnElement", "parser.go: GetValueType", "utils.go: getBuildInTypeByLang", "genGo.go: GenGo", "genC.go: GenC", "genJava.go: GenJava", "genRust.go: GenRust", "genTypeScript.go: GenTypeScript"]}
{"id": "C111", "title": "A project gives the same in all languages", "statement": "If a schema with the schemas it imports and includes can be translated to two languages, both translations contain a file for every schema the project refers to, directly or through others, and the two files for a schema declare the same components with the same members.  Whether a project can be translated, and which files it is translated to, does not depend on the language either.", "quantifier": "all projects, all pairs of languages, all configurations", "why_tests_cant": "the tests compare each language with its own expected output only; the difference shows when a target type is looked up like a name of the schema, which needs an import without name space beside a restriction", "anchors": ["xmlRestriction.go: OnRestriction", "xmlExtension.go: OnExtension", "parser.go: GetValueType", "utils.go: getBuildInTypeByLang", "schema.go: prepareNSSchemaLocationMap"]}
{"id": "C112", "title": "How a parse ends does not depend on the language", "statement": "Let a document, whether it makes sense as a schema or not, contain no import or include tag and no element tag with an empty type or ref.  If output can be written, the parse for one language ends as the parse for any other: with the same error, in the same panic, or with trees that have the same sequence of components, equal in names, attributes, groups, union members, enumeration values, documentation and plurality - everything except target types and the elements inside complex types.", "quantifier": "all sequences of tags and text, all pairs of languages and packages, all configurations", "why_tests_cant": "all schemas among the tests are valid and each is compared with its expected output; that malformed input is treated alike by all languages is about inputs no test has", "anchors": ["parser.go: Parse", "parser.go: GetValueType", "xmlElement.go: OnElement", "xmlComplexType.go: OnComplexType", "xmlRestriction.go: EndRestriction", "xmlEnumeration.go: EndEnumeration", "xmlGroup.go: OnGroup"]}
{"id": "C113", "title": "No document blows up", "statement": "If a parse succeeds, the components of the tree together with all their members (elements, attributes, references to groups and attribute groups, enumeration values, union members) are at most as many as the tags, XML attributes and characters of XML attributes of the document; text adds nothing.  This holds for every sequence of tags, whatever the document imports, and the bound is reached.", "quantifier": "all sequences of tags and text, all file systems, all configurations and registries", "why_tests_cant": "a bound for all documents, including malformed ones, cannot be tested; the places where a component is copied or appended twice (an element stands on the stack twice, a simple type end tag has two branches that append) only show for unusual nestings", "anchors": ["parser.go: Parse", "xmlElement.go: OnElement", "xmlElement.go: EndElement", "xmlSimpleType.go: EndSimpleType", "xmlUnion.go: OnUnion", "xmlEnumeration.go: OnEnumeration", "xmlAttributeGroup.go: OnAttributeGroup"]}
{"id": "C114", "title": "The command reports alike for every language", "statement": "Let the documents on the disk contain no import or include tag and no element tag with an empty type or ref, and let output be writable.  Then the command, run on any file or directory with any other flags, prints the same and exits with the same status for any two of the languages it supports and any two packages: it stops at the same file with the same complaint, panics at the same file, or gets through.  On the command line: replacing the word after any -l, one language by another, changes neither what is printed nor the exit status, whatever the other arguments are.", "quantifier": "all disks with such documents, all flags and argument lists, all pairs of supported languages and of packages, all texts of errors", "why_tests_cant": "the tests run the parser on valid schemas only and never the command; that malformed input is reported alike is about all inputs and pairs of languages", "anchors": ["cmd/xgen/xgen.go: main", "cmd/xgen/xgen.go: parseFlags", "parser.go: Parse"]}
{"id": "C115", "title": "The languages write the same files", "statement": "Let the documents on the disk contain no import or include tag and no element tag with an empty type or ref, and let output be writable.  Then the command, run on any file or directory, writes one file for each document, in the order of the documents, until it stops, and for all documents if it gets through; each lies at the place of its document below the output directory.  For any other language and package the files are the same but for the extension.", "quantifier": "all disks with such documents, sensible or not, all flags, all pairs of languages and of packages", "why_tests_cant": "the tests parse one valid schema at a time and look at no other file; that a rejected document leaves nothing behind and stops all languages at the same place is about all inputs", "anchors": ["cmd/xgen/xgen.go: main", "utils.go: GetFileList", "parser.go: Parse", "genGo.go: FileWithExtension"]}

# Formal model of helium (XML parser, DOM, serialiser)

Source of truth: the Go code in `/repo` (pinned commit), read as text; it is neither built nor run here. The model is Lean 4 (4.33.0), in
`/verif/lean`. Properties: `properties.jsonl`. Status and theorem names: `MANIFEST.json`. Deliberately wrong variants of the model and the
theorems that notice them: `seeded/LOG.jsonl`.

## 1. Shape of the model

| directory | content |
|---|---|
| `Verif/Model` | the code, function by function, each definition citing file and lines |
| `Verif/Spec` | what the properties mean: grammars, event grammars, abstract trees and tables, written without the model's helpers |
| `Verif/Lemmas` | helper lemmas |
| `Verif/Props` | the property theorems, their witnesses and sample instances |

* **Bytes and runes** (`Model/Utf8`): strings and `[]byte` are `List Nat` of bytes, runes are `Nat`. `utf8.DecodeRune` and `WriteRune` are
  modelled byte for byte. Arithmetic on `int32` that can wrap (character references) is modelled modulo 2^32.
* **Outcomes** (`Model/Base`): a program is `M S α = S → Out S α`, and `Out` is `ok a s`, `err e s` (with the state reached, because several
  callers ignore an error and carry on), `panic` (run-time or explicit panic) and `diverge` (does not return within the budget). A panic or a
  run that does not return leaves no state and no trace.
* **Budgets**: two loops take an explicit budget: `parseContent` (nesting of content and entity expansion) and `stringToNodeList` (entity
  expansion in attribute values). Every other loop consumes at least one character per round or never ends; it gets the budget
  `length of the rest of the input + 1`, and running out of it is `diverge`. So `diverge` with every budget means the Go code does not return;
  the theorems of C07 show from which budget on a parse returns, and the `…_hangs` witnesses hold for every budget.
* **Parser** (`Model/Parser/*`): `parserctx.go` over a cursor that is the list of remaining runes (of bytes while the XML declaration is read),
  for an arbitrary SAX handler with a state of its own. Every callback and its answer is recorded in a ghost trace; the code never reads it.
* **Handler**: `HV → Ev → HC σ → HOut × HC σ`. A handler sees the visible parts of the context (version, encoding, standalone, which subset)
  and may change the heap, the document and the current element. Its answer is nil, an entity, "unspecified", an error, a panic, or no return.
  A handler that returns both an entity and an error is not modelled. Handlers do not get hold of the parser's cursor.
* **Tree** (`Model/Heap`, `Model/Dom`): the DOM as a heap of nodes with first/last/next/prev/parent/owner pointers. `addChild`, `addSibling`,
  `addContent`, `replaceNode`, `setTreeDoc`, `Walk`, attributes, DTD tables.
* **Tree builder** (`Model/TreeBuilder`): `tree.go` as a handler over that heap.
* **Serialiser** (`Model/Escape`, `Model/Dump`): `dump.go`.
* **Small parts** (`Model/Small`, `Model/Encoding`): option flags, stacks, encoding table, content models.

The model was also evaluated on the documents under `/repo/test` and compared with the recorded `.dump` files; this is a check of the
translation and no part of any proof.

## 2. Trusted base

* Lean's kernel. Axioms: at most `propext`, `Classical.choice`, `Quot.sound`; the list per theorem is in section 6. No own axioms, no `sorry`,
  no `native_decide`, no `bv_decide`. The tactic `kernel_rfl` (`Lemmas/KernelRfl`) only produces the term `Eq.refl`, which the kernel accepts or
  refuses; it serves for concrete runs.
* The translation from Go to Lean by hand.
* External code, as the parameters and assumptions of `Env` (`Model/Env`). Every theorem holds for all environments that meet them; two
  environments (`env0`, `envF`, in `Model/StdEnv`) do.
  * `strcursor` (not in the repository). The cursor is the list of remaining runes or bytes. `PeekN(n)` is the n-th element, and past the end a
    fixed sentinel: `eof` for runes, `beof` for bytes, each assumed to be 0 or U+FFFD, both covered. `Advance(n)` drops n elements, past the end
    everything. `HasPrefix` and `Consume` compare a prefix. `Done` is emptiness. Line and column are not modelled.
    `*ByteCursor` is assumed to satisfy the interface `strcursor.Cursor`, on which parserctx.go:5131 relies too (were it not so, a `%` after white
    space inside the XML declaration would panic in `handlePEReference`).
  * `unicode.IsLetter`, `IsDigit`, `unicode.Extender`: parameters. Assumed: the ASCII part of the tables; members are Unicode scalar values other
    than U+FFFD; U+FFFE and U+FFFF are neither letters nor digits.
  * `golang.org/x/text` decoders: a parameter `decode`. Assumed only: UTF-8 text of scalar values decodes to these values (`decode_utf8`).
  * `net/url.Parse`: a Boolean parameter without assumptions.
  * iteration over a Go map (the default attributes of an element): a parameter `order`, assumed to be a permutation.
* Simplifications: `strings.ToLower` acts on ASCII letters only (used for encoding names); error texts and positions are dropped, errors are
  values of an enumeration plus the handler's own; `map` is an association list; integers that only count are natural numbers.
* Not modelled: pdebug tracing, concurrency of callers (the library starts no goroutine; the two goroutines of `helium-lint` are modelled as a transition system), memory exhaustion
  and stack overflow, `internal/cliutil`. Go's channels are trusted: a send on an unbuffered channel happens together with its receive, a receive
  from a closed channel ends the loop, and a process whose goroutines all wait is ended by the run time.

## 3. Which code is modelled

| file | modelled | not modelled |
|---|---|---|
| `parserctx.go` | everything the parser can reach: XML declaration, encoding switch, prolog, document type declaration, element, entity, attribute and notation declarations, content models, start and end tags, attribute values, references, entity expansion in content, CDATA, comments, PIs, `stringToNodeList`'s callers | `parseExternalEntityPrivate`, buffer pools, `parserState.String` |
| `parser.go` | `Parse`, `Parser.Parse` | `SetSAXHandler` (the handler is a parameter; a nil handler is not modelled) |
| `tree.go` | every callback the parser makes | callbacks the parser never makes (`StartDTD`, `EndDTD`, `NotationDecl`, … : return an error or nil at once) |
| `node.go`, `text.go`, `comment.go`, `pi.go`, `attr.go`, `element.go`, `entity.go`, `reference.go` | the shared `add*`, `replaceNode`, `setTreeDoc`, `Walk`, `SetAttribute`, text and comment overrides, expansion of entities to nodes, `Element.XMLString` | getters and setters of one field, methods that only call the shared function |
| `document.go`, `dtd.go` | node creation, entity/element/attribute registration and lookup, `SetDocumentElement`, `stringToNodeList` | one-line getters, `Free` |
| `dump.go` | all | |
| `valid.go`, `bitset.go`, `stack.go`, `internal/stack`, `encoding` | option flags, stacks, content model copy and tables, `Load` | `Len`, `Cap` |
| `sax/sax2.go` | the table of callbacks and the methods the parser calls (`Model/Sax2`) | handlers for callbacks the parser never makes |
| `sax/interface.go` | callbacks made by the parser, as `Ev` | the rest |
| `cmd/helium-lint` | `_main` after the options, both goroutines | option parsing, `IsTty`, usage and version texts, failing writes to standard output |

Code without effect: no option sets `replaceEntities`, so `decodeEntities` is only called for entity values, with `SubstitutePERef`.
`parseStringPEReference` and `parseStringEntityRef` hand the `%` or `&` itself to `parseStringName`, so they always fail (`C53_percent_lost`).
`handlePEReference` leaves everything as it is, because `external` is never set. `entityCheck` returns nil. The parser model leaves these out;
`Model/Parser/Strings` models them in full, and C70 proves that nothing was lost.
External entities and subsets are refused before `parseExternalEntityPrivate` (`C53_external_refused`, `C53_subset_refused`).
The comments in `Model/Parser` say so where it happens.

## 4. Method

* **Backward**: a program logic over all runs for all handlers (`Lemmas/Logic*`, `SatI`, `Silent`, `Frame`). One pass over the parser shows that
  every callback meets its condition and every run keeps an invariant; instances give the bracketing, the envelope, the abort on errors, legal
  characters, the namespace rule, the tree invariant.
* **Forward**: `…_run` lemmas (`Lemmas/Forward`, `Source*`, `DeclRun`, …) compute the run on any text of a grammar, by induction on the grammar.
  They give acceptance and faithful reporting.
* **Acceptance**: `Lemmas/Accept*` go from a successful run back to the grammar of what was read.
* **Totality**: `Lemmas/Total*` bound the budget and exclude panics.
* **Heap**: representation predicates (`Lemmas/Links`, `TreeInv`, `Shows`) relate the heap to abstract forests, trees and tables; each
  operation is shown to refine its abstract counterpart, and histories follow by induction.
* A property the code violates is stated in full as `Cxx_statement`, refuted by a concrete document or call (`Cxx_refuted`), and proved on the
  largest class found (`Cxx_…_partial`). Hypotheses of each theorem are met by a sample beside it.

## 5. Properties

| id | what is modelled and stated | how proved; what is missing |
|---|---|---|
| C01 | `Parser.Parse`, error wrapping | invariant over all exits: a parse error is wrapped once. Handlers that themselves return a twice wrapped error are excluded |
| C02 | whole parser, any handler; event bracketing as a stack automaton | program logic; runs that return |
| C03 | event envelope as an automaton | program logic by phases |
| C04 | every callback site | invariant "nothing follows the first error of a handler" |
| C05, C61 | accepted input against grammars `Accepted` and `LooseDoctype` (Spec/Accepted, Spec/AcceptedDtd) | inversion of runs, function by function, with the parser's flags tracked through the document type declaration. C05 fails for an unterminated comment after the root, C61 for undeclared parameter entities after the first reference; NUL excluded |
| C62 | the tree builder's answer to a declaration of `xml:id` | every answer in a trace is one of the handler's (program logic `ansL`), then C04 |
| C06 | data of text, comment and white space events | program logic. CDATA is unchecked (refuted) |
| C07 | budgets of all loops | measure argument; four kinds of input that hang for every budget. After a well-formed internal subset without general entities the rest may be anything. Missing: malformed internal subsets |
| C08 | parser and tree builder | totality with an invariant on the heap; panic witnesses. Same class, predefined references only; after a well-formed internal subset the rest may be anything |
| C09 | serialiser, parser, tree builder | dump of a tree is a document of the grammar, which is read back to the same tree. Missing: several declarations of one prefix or of the default namespace, a default namespace declaration in a tag with attributes (`C09_default_panics`: what is written cannot be read), CDATA and PIs (which do not survive). From the text (`C09_source_partial`): the tree of every text of the C51 class that avoids the losses (`Writable`, a condition on the tree) is in the class of trees read back. Witnesses of the losses in Props/WriteLoss. DTDs: C67 |
| C10, C11, C12 | `escapeText`, `escapeAttrValue` | induction on bytes, inverse functions in the specification; C12 refuted for malformed UTF-8 |
| C13 | `dumpQuotedString` | case analysis; refuted for values with both quotes |
| C14, C15, C16, C17 | comments, PIs, CDATA, line ends | exact forward and inverse lemmas; each refuted by its own witness |
| C18 | character references with wrap-around | arithmetic; exact below 2^32 |
| C19, C20, C60 | `SetAttribute` histories; heaps made by `Parse` | induction on histories; for `Parse` an invariant of every DOM operation and every tree-builder callback (attribute lists are disjoint, properly linked, with different names; other pointers never lead to attributes), carried through the whole parser by the program logic, DTDs and entities included |
| C21 | namespace stack, URI of elements | program logic with the declarations seen so far; scoping refuted |
| C22 | XML declaration, reading and writing | forward lemmas; refuted for white space before `?>` |
| C23 | detection and byte order mark | simulation of the two runs; refuted for wide encodings |
| C63, C64 | documents in another encoding (`EncodedDocument`, Spec/Encoded); the decoder is a parameter (`Env.decode`) | forward run of the parser through `switchEncoding` (Lemmas/EncodedRun) and C45. C64 fails because the serialiser only writes UTF-8; true for ASCII output |
| C65 | `encoding.Load` against the registered names | whole finite table, any letter case. Fails for 17 of 36 registered names; the names that are taken are characterised |
| C66 | parser and tree builder on documents with an internal subset, declaration tables, entity literals (`setOrig`) | forward run of every declaration with an invariant on the tables of the DTD (`DtdInv`), kept by all events outside of the subset; keys of the tables are injective. Refuted for an attribute declared twice. Missing: what `Declarable` excludes, entity references |
| C67 | serialiser on the document type declaration and its children, then the parser and tree builder on the output | the bytes written for each declaration are a text of `DeclText` for the same declaration (`decl_dumps`), so the output is a `DtdDocument` and C66 applies; the tree is read back as it is because its values are settled. Refuted for type ENTITIES. Missing: what `Survives` and `Declarable` exclude, external identifiers |
| C68 | `parseReference`, `parseEntityRef`, `parseBalancedChunkInternal` with a handler that keeps declared entities | forward run by induction over the grammar `RefSrc` of `Spec/Refs` (`Lemmas/RefRun`); the nested parser leaves the outer parser and the nodes of the handler as they were; refuted: namespaces declared around the reference are unknown in replacement text |
| C69 | `parseAttributeValue(Internal)`, `parseEntityRef`, `attrNormalizeSpace`, `parseStartTag`, `parseDefaultDecl`, `parseAttributeListDecl` with the tree builder | invariant of the trace and of the entity tables over all runs (`Lemmas/ValLogic`); a lookup that finds anything but a predefined entity implies a declaration event |
| C70 | `handlePEReference`, `skipBlanks`, `parseStringName`, `parseStringPEReference`, `parseStringEntityRef`, `decodeEntitiesInternal` (`Model/Parser/Strings`) | case analysis over the states; induction over the steps; the parser model's `skipBlanks` and `decodePE` are equal to the full versions |
| C71 | `helium-lint`: two goroutines and two unbuffered channels as a transition system (`Model/Lint`); the work on one file is a parameter, instantiated with parser and serialiser | invariant under every step: what the rest of the run will end with (`LSt.future`) never changes; a size falls with every step. Refuted for a file that cannot be opened (deadlock); the error of `DumpDoc` is lost |
| C72 | the calls `elementDecl`, `attributeDecl`, `entityDecl` of the subset parser | program logic over the whole parse with the specification of the reported event (`Lemmas/LogicSat`, `Lemmas/DocLogic`); the tree builder agreed to every event of an accepted document (`Lemmas/Accepted`), so its checks in `AddElementDecl` passed |
| C73 | `Element.XMLString`, `DumpNode`, `DumpDoc` | serialising only appends and what it appends does not depend on the buffer (`Additive`, `Lemmas/DumpParts`); a larger depth budget changes no outcome, and counting the nodes on which serialising returns shows that depth `size + 1` is enough, so an element and its children can be given the same budget (`Props/Parts`) |
| C74 | `parseElementChildrenContentDeclPriv`, the part after the members (`childrenClose`) | refuted for `(a*)+` and `(a*)?`; for all other groups: specification of the sequences a content model allows (`Spec/ModelLang`), both normalisations shown to keep them by equality of repetitions (`SameMany`) and induction over the chain of choices (`Props/ModelLang`); whole declarations: induction over the grammar of `Spec/Content` (`C74_text_partial`); for all accepted documents, one direction: the grammar `LooseModel` of what the parser reads carries the model it builds, and by induction over it this model allows no more than the text (`Props/ModelAccepted`) |
| C75 | the whole parser; `entityCheck`, which checks nothing, is the reason for the refutation | refuted by a family of documents with `k ≤ 20` levels of entities, each `m` references to the one below, run through `C68_events_partial`: `m ^ k` events from about `22·k·m` bytes (`Props/Growth`); without entities and document type declaration: one character for each event, by induction over the grammar `Accepted` of what the parser accepts |
| C76 | `parseStartTag` with its attribute loop, the namespace table and everything that runs with it (entity contexts start from an empty table) | invariant of the namespace table in a program logic over the whole parser: every binding of a prefix passed the checks of parserctx.go:757-789 (`Lemmas/NsNames`); the table and the declarations taken from it give the start tags; refuted by `xmlns:p` bound to the namespace of `xml`, with further accepted documents that break the rules |
| C77 | `parseAttributeValue(Internal)`, `parseEntityRef`, `getEntity`, `attrNormalizeSpace`, `parseStartTag`, `parseDefaultDecl`, `parseAttributeListDecl`, `DTD.AddEntity`, `Document.GetEntity` with the tree builder | invariant of the heap over all runs: nodes of entities keep name and type, tables hold entities under their own name (`Lemmas/Tabs`, `Lemmas/EntLogic`); values as lists of pieces (`Spec/Pieces`, `Lemmas/Pieces`, `Lemmas/ValLogic`), closed under trimming and splitting at spaces; types of entities by C72; refuted by an entity whose text is `<` |
| C24 | `encoding.Load` | whole finite table |
| C25–C30 | tree operations, `Walk`, `SetTreeDoc`, document element | refinement of abstract forests, induction on histories |
| C31–C33 | DTD tables | histories of declarations against tables in the specification |
| C34 | copy of content models | structural induction |
| C35 | serialised content models read back | forward lemmas over the grammar of `Spec/Content`; refuted for repetition of a single name and for mixed content with a name |
| C36 | nesting of content models | depth counter as part of the invariant, all inputs |
| C37 | entity expansion | equality with a parser that carries an explicit allowance; refuted for attribute values |
| C38, C39 | entity references | program logic with the entities declared so far; forward lemmas |
| C40 | option flags | whole table, induction on sequences; refuted (bits overlap) |
| C41 | stacks | refinement to lists |
| C42 | names | exact forward and inverse lemmas |
| C43 | `attrNormalizeSpace` | induction; refuted (all spaces panics) |
| C44, C47 | white space in content and tags | forward lemmas for any state and handler |
| C45 | tree builder driven by the parser | heap invariant: the heap shows the tree of the events so far, and the internal subset shows the declarations so far. While the replacement text of an entity is read the tree builder works in a region of its own below a pseudo root: a second invariant (Lemmas/ChunkFrame, ChunkTb) says that everything outside of it stays as it was, so afterwards the reference becomes a leaf. Refuted: CDATA sections dropped; a PI inside the DTD breaks the links |
| C46 | UTF-8 | arithmetic |
| C48, C49 | tags, with the values of attributes | inversion of runs; values by an invariant of the loop (`Kept`) that relates the buffer to the words of the text read; with the tree builder a reference to a declared entity stands for itself (`HeldFor`), by the last event of the run that resolves it; refuted by `<a b"c"/>` and `<a>/>` |
| C50 | serialiser | exact condition for documents without document type declaration: writes the tree or panics (`Lemmas/DumpRun`, `Lemmas/Marker`); the values are of the right form by C69. With a document type declaration: succeeds or panics, for every parse without PI inside it, complete content models and no ENTITIES attribute (`Lemmas/DtdWrites`) |
| C51 | documents of the grammar `Spec.Document` (and `DtdDocument` at event level) | forward induction |
| C52 | `areBlanks`, `isMixedElement` | histories of declarations; refuted |
| C53 | element, entity, attribute list declarations | forward lemmas over the grammars of `Spec/Content`, `Spec/Decl` |
| C54 | `addAttributeDefault`, `parseStartTag` with the table of default attributes | tables of the parser follow the declarations (`Lemmas/AttTab`), forward run (`Lemmas/AttDoc`); refuted for attributes that are in the tag |
| C55 | `parseAttribute`, `attrNormalizeSpace`, `addSpecialAttribute`, `cleanSpecialAttributes` | same; refuted for redeclared and prefixed names |
| C56 | `SAX2` and its methods (`Model/Sax2`) | two runs side by side (`Lemmas/Sim*`): handlers that give the parser the same answers keep it in the same state |
| C57 | any handler; forwarding to the tree builder through `SAX2` | same |
| C58 | the budgets of `parseContent`, `stringToNodeList` and the tree builder | same, where the first run may stop early |
| C59 | the order in which `parseStartTag` goes through the map of default attributes (`Env.order`), the skip of `IsDefault` in `StartElementNS` | same two-run logic with two environments; every node in the table of default attributes exists and is marked, which the heap keeps |

## 6. Axioms per theorem

`#print axioms` for every theorem named in MANIFEST.json. P = `propext`, C = `Classical.choice`, Q = `Quot.sound`.

* **none**: `C18_fffd_refused`, `C26_document_panics`, `C28_walk_nil`, `C35_first_group_panics`, `C74_opt_star`
* **P**: `C12_refuted`, `C15_refuted`, `C16_tree_drops`, `C17_pairs_replaced`, `C20_value_without_reference`, `C27_refuted`, `C34_copy_content_model`, `C43_refuted`, `C44_in_tree`, `C52_tree_keeps`, `C65_refuted`, `C65_registered_partial`
* **Q**: `C56_dispatch`
* **PQ**: `C13_quoted_partial`, `C13_refuted`, `C13_both_quotes`, `C13_entity_percent`, `C13_entity_plain`, `C14_refuted`, `C15_dump_loses`, `C16_accepted`, `C16_delivered_partial`, `C18_refuted`, `C20_distinct_names_all_kept`, `C20_refuted`, `C23_unambiguous`, `C23_detected`, `C23_consumes_bom_partial`, `C23_refuted`, `C26_replace_substitutes`, `C27_merge_separates`, `C29_refuted`, `C30_single_document_element`, `C30_first_document_element`, `C40_refuted`, `C40_refuted_loadSubset`, `C41_stack_lifo`, `C41_unique_stack`, `C48_value_unique`, `C70_handle`, `C70_blanks`, `C70_values`, `C70_untouched`, `C70_no_reference`, `C71_outcome`, `C71_stdin`, `C71_finishes`, `C71_success`, `C71_error_unheard`, `C71_intended_partial`, `C71_opened_partial`, `C71_refuted`, `C71_command`, `C73_document`
* **PCQ**: `C01_parse_result`, `C01_parse_default`, `C02_nesting`, `C02_one_root`, `C03_envelope`, `C04_handler_error_aborts`, `C05_accepted_partial`, `C05_refuted`, `C06_legal_characters_partial`, `C06_refuted`, `C07_refuted`, `C07_colon_hangs`, `C07_enum_hangs`, `C07_subset_hangs`, `C07_cdata_hangs`, `C07_terminates_partial`, `C07_handler_partial`, `C07_subset_partial`, `C08_refuted`, `C08_entity_panics`, `C08_xmlns_panics`, `C08_charref_panics`, `C08_space_panics`, `C08_returns_partial`, `C08_handler_partial`, `C08_subset_partial`, `C09_refuted`, `C09_roundtrip_partial`, `C09_stable_partial`, `C09_source_partial`, `C09_default_twice`, `C09_default_panics`, `C09_uri_unescaped`, `C09_uri_refused`, `C09_uri_read`, `C09_uri_quotes`, `C09_comment_read`, `C09_comment_written`, `C09_comment_changed`, `C10_escapeText_reversible`, `C11_escapeAttrValue_reversible`, `C12_escape_total_partial`, `C14_accepted_partial`, `C14_delivered`, `C15_accepted_partial`, `C15_delivered`, `C16_refuted`, `C17_delivered_partial`, `C17_refuted`, `C18_accepted_partial`, `C18_delivered`, `C19_attribute_names_distinct`, `C19_rejected_call_changes_no_list`, `C19_duplicate_is_rejected`, `C19_parsed_attributes_distinct`, `C19_parsed_tree_attributes_distinct`, `C20_attribute_order_and_values_partial`, `C21_refuted`, `C21_leaks`, `C21_default_kept`, `C21_first_declaration_partial`, `C21_scoped_partial`, `C22_refuted`, `C22_accepts_partial`, `C22_read_back`, `C23_bom_transparent`, `C24_encoding_lookup`, `C24_unsupported_refused`, `C25_links_consistent`, `C25_walk_children`, `C27_no_adjacent_text`, `C27_content_concatenated`, `C28_walk_preorder`, `C28_walk_records`, `C29_setTreeDoc_owns_partial`, `C30_exactly_one`, `C31_refuted`, `C31_refuted_parse`, `C31_entities_partial`, `C31_first_binding_partial`, `C31_predefined`, `C32_element_types`, `C32_later_declarations`, `C33_refuted`, `C33_refuted_parse`, `C33_attributes_partial`, `C35_refuted`, `C35_starred_lost`, `C35_mixed_lost`, `C35_round_trip_partial`, `C36_nesting`, `C37_refuted`, `C37_nesting_partial`, `C37_recursion_partial`, `C37_content_partial`, `C38_declared_first`, `C38_accepted_partial`, `C38_refuted`, `C77_defaults_partial`, `C39_content`, `C39_attribute`, `C39_attribute_value`, `C40_options_partial`, `C42_name`, `C42_ncname`, `C42_qname_partial`, `C42_accepted`, `C42_refuted`, `C43_normalize_partial`, `C43_spaces_panic`, `C43_idempotent`, `C44_white_space`, `C45_tree_partial`, `C45_tree_entities_partial`, `C45_tree_references_partial`, `C45_tree_doctype_partial`, `C45_tree_no_cdata_partial`, `C45_refuted`, `C45_pi_refuted`, `C46_utf8_inverse`, `C47_refuted`, `C47_same_partial`, `C47_attribute_partial`, `C48_tag_partial`, `C48_refuted`, `C48_document_partial`, `C48_sample_reference`, `C49_element_partial`, `C49_refuted`, `C50_refuted`, `C50_serialises_partial`, `C50_parsed_partial`, `C50_exactly_partial`, `C50_doctype_partial`, `C50_subset_partial`, `C50_group_lost`, `C50_entities_refused`, `C51_events`, `C51_events_total`, `C51_tree`, `sample_document`, `C51_dtd_events_partial`, `C52_refuted`, `C52_witness`, `C52_unprefixed_never_mixed`, `C52_prefixed_swapped`, `C52_only_white_space_partial`, `C53_element_partial`, `C53_entity_partial`, `C53_attlist_partial`, `C53_declaration_partial`, `C53_first_group_lost`, `C53_star_dropped`, `C53_no_content`, `C53_refused`, `C53_percent_lost`, `C53_external_refused`, `C53_subset_refused`, `C53_blank_default_panics`, `C53_empty_attlist_hangs`, `C53_notation_hangs`, `C54_supplied_partial`, `C54_partial`, `C54_refuted`, `C54_twice`, `C54_empty_lost`, `C55_partial`, `C55_refuted`, `C55_last_type`, `C55_prefixed_element`, `C55_local_element`, `C55_prefixed_attribute`, `C55_spaces_crash`, `C56_unset_callbacks`, `C57_observer`, `C57_notes`, `C57_tree`, `C58_handler`, `C58_parse`, `C59_parse`, `C59_no_defaults`, `C59_callbacks_depend`, `C60_attributes_are_no_children`, `C61_doctype_partial`, `C61_refuted`, `C62_rejected`, `C62_accepted`, `C63_events`, `C63_tree`, `C63_same_report`, `C64_refuted`, `C64_ascii_partial`, `C65_spellings_partial`, `C65_distinct`, `C66_refuted`, `C66_partial`, `C66_twice_rejected`, `C66_element_twice_rejected`, `C67_refuted`, `C67_partial`, `C67_text_partial`, `C67_entities`, `C67_default_unescaped`, `C67_default_empty`, `C67_comment_moves`, `C68_refuted`, `C68_events_partial`, `table_remembers`, `sample_refs`, `C68_scope_refused`, `C68_text_refused`, `C68_nested_panics`, `C68_element_taken`, `C69_values`, `C69_defaults`, `C69_meaning`, `C69_declared`, `C71_truncated`, `C71_status_refuted`, `C72_reported`, `C72_accepted`, `C72_no_type`, `C73_element`, `C73_budget`, `C74_close_partial`, `C74_refuted`, `C74_text_partial`, `C74_text_refuted`, `C74_accepted_partial`, `C74_lost_group`, `C75_plain_partial`, `C75_laughs`, `C75_refuted`, `C76_reserved_partial`, `C76_prefix_partial`, `C76_xml_renamed`, `C76_default_unchecked`, `C76_default_attribute`, `C76_attributes_unchecked`, `C76_xml_refused`, `C76_refuted`, `C77_references_partial`, `C77_reading`, `C77_sample`, `C77_sample_default`, `C77_refuted`

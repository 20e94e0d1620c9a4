{"claims": [
{"property": "C01", "status": "proved", "theorems": ["C01_parse_result", "C01_parse_default"], "note": "handlers that themselves return a doubly wrapped parse error are excluded; Parse with its own tree builder needs no hypothesis"},
{"property": "C02", "status": "proved", "theorems": ["C02_nesting", "C02_one_root"], "note": "for runs that return (a panicking run has no result)"},
{"property": "C03", "status": "proved", "theorems": ["C03_envelope"], "note": "for runs that return"},
{"property": "C04", "status": "proved", "theorems": ["C04_handler_error_aborts"], "note": "for runs that return"},
{"property": "C05", "status": "partial", "theorems": ["Helium.C05_accepted_partial", "Helium.C05_refuted"], "note": "An accepted input is, after its head and decoded, a prolog, one element of the grammar Accepted, and only white space, comments and PIs up to the end; events follow the grammar. The prolog is either white space, comments and PIs, or these around one document type declaration of the grammar LooseDoctype (see C61), with the events that follow from it. The full claim fails: an unterminated comment after the root element is accepted. Inputs with NUL characters are left out. Names and values of the reported attributes follow from the text (see C48)."},
{"property": "C06", "status": "partial", "theorems": ["C06_legal_characters_partial", "C06_refuted"], "note": "full claim is false: CDATA is unchecked"},
{"property": "C07", "status": "partial", "theorems": ["Helium.C07_refuted", "Helium.C07_colon_hangs", "Helium.C07_enum_hangs", "Helium.C07_subset_hangs", "Helium.C07_cdata_hangs", "Helium.C07_terminates_partial", "Helium.C07_handler_partial", "Helium.C07_subset_partial"], "note": "Refuted as stated: '<a:1/>', an enumerated attribute type, any non-declaration in the internal subset, and (for one value of the end-of-input sentinel) an unterminated CDATA section each make the parser loop for ever, shown for every step budget. Partial: for every input without internal subset and free of those constructs there is a budget from which on the parse returns, with the tree builder and with any handler that itself returns; with the tree builder also after a well-formed internal subset that declares no general entities."},
{"property": "C08", "status": "partial", "theorems": ["Helium.C08_refuted", "Helium.C08_entity_panics", "Helium.C08_xmlns_panics", "Helium.C08_charref_panics", "Helium.C08_space_panics", "Helium.C08_returns_partial", "Helium.C08_handler_partial", "Helium.C08_subset_partial"], "note": "Refuted as stated: '<a>&foo;</a>', a doubled default namespace declaration and an unfinished character reference in an entity value panic. Partial: inputs without internal subset, with references to predefined entities only and without default namespace declarations, free of the hanging constructs, always give a value or an error, however malformed otherwise; with the tree builder also after a well-formed internal subset (then without character references to a space if tokenised attributes are declared)."},
{"property": "C09", "status": "partial", "theorems": ["Helium.C09_refuted", "Helium.C09_roundtrip_partial", "Helium.C09_stable_partial", "Helium.C09_source_partial", "Helium.C09_default_twice", "Helium.C09_default_panics", "Helium.C09_uri_unescaped", "Helium.C09_uri_refused", "Helium.C09_uri_read", "Helium.C09_uri_quotes", "Helium.C09_comment_read", "Helium.C09_comment_written", "Helium.C09_comment_changed"], "note": "Refuted as stated: the text 'textnoenc' makes the serialiser panic, and a default namespace declaration before an attribute is written twice, on which Parse panics. Proved for all documents of elements, attributes, namespace declarations, text and comments with legal names and characters, of any size and depth, except: several declarations of one prefix or of the default namespace, a default namespace declaration in a tag with attributes, namespace names that would need escaping. Witnesses for the exclusions: a namespace name with < is written raw and refused, one with both quotes loses a quote, CR LF in a comment comes back as LF. C09_source_partial states it from the text: every well-formed text of the C51 class, however written, whose tree avoids these losses is read, written and read back to the same tree and XML declaration, and writing again gives the same bytes."},
{"property": "C10", "status": "proved", "theorems": ["C10_escapeText_reversible"], "note": ""},
{"property": "C11", "status": "proved", "theorems": ["C11_escapeAttrValue_reversible"], "note": ""},
{"property": "C12", "status": "partial", "theorems": ["C12_escape_total_partial", "C12_refuted"], "note": "full claim is false; see the witness"},
{"property": "C13", "status": "partial", "theorems": ["C13_quoted_partial", "C13_refuted", "C13_both_quotes", "Helium.C13_entity_percent", "Helium.C13_entity_plain"], "note": "full claim is false for values with both quotes. Entity values with a percent sign are written as one literal whatever quotes they contain, those without like other literals."},
{"property": "C14", "status": "partial", "theorems": ["Helium.C14_accepted_partial", "Helium.C14_delivered", "Helium.C14_refuted"], "note": "The claim fails: a comment cut off by the end of the input (or by an illegal character) is accepted. Otherwise accepted means closed, legal and reported with exactly its body (CR LF normalised), and every legal comment without U+FFFD is reported."},
{"property": "C15", "status": "partial", "theorems": ["Helium.C15_accepted_partial", "Helium.C15_delivered", "Helium.C15_dump_loses", "Helium.C15_refuted"], "note": "Parsing is exact in both directions on input without NUL (a NUL after the target is swallowed). Serialising loses the instruction: every PI node is written as <></>."},
{"property": "C16", "status": "partial", "theorems": ["Helium.C16_accepted", "Helium.C16_delivered_partial", "Helium.C16_tree_drops", "Helium.C16_refuted"], "note": "SAX side is exact for non-empty sections; the empty section is rejected and the tree builder drops every section."},
{"property": "C17", "status": "partial", "theorems": ["Helium.C17_pairs_replaced", "Helium.C17_delivered_partial", "Helium.C17_refuted"], "note": "Every CR LF pair becomes LF and nothing else changes; CR CR LF is delivered as CR LF, so the second half of the claim fails exactly there."},
{"property": "C18", "status": "partial", "theorems": ["Helium.C18_accepted_partial", "Helium.C18_delivered", "Helium.C18_fffd_refused", "Helium.C18_refuted"], "note": "Numbers are taken modulo 2^32, so &#x100000041; is accepted as A; below 2^32 exact; all legal characters but U+FFFD accepted."},
{"property": "C19", "status": "proved", "theorems": ["Helium.C19_attribute_names_distinct", "Helium.C19_rejected_call_changes_no_list", "Helium.C19_duplicate_is_rejected", "Helium.C19_parsed_attributes_distinct", "Helium.C19_parsed_tree_attributes_distinct"], "note": "SetAttribute histories, and the heap after Parse for every input (document type declarations, entities and failed parses included)."},
{"property": "C20", "status": "partial", "theorems": ["Helium.C20_attribute_order_and_values_partial", "Helium.C20_distinct_names_all_kept", "Helium.C20_value_without_reference", "Helium.C20_refuted"], "note": "Order and values for all histories of calls with UTF-8 values in which ampersands are written &#38;. The value part of the statement fails for bytes that are not UTF-8 (C20_refuted: they become U+FFFD)."},
{"property": "C21", "status": "partial", "theorems": ["Helium.C21_refuted", "Helium.C21_leaks", "Helium.C21_default_kept", "Helium.C21_first_declaration_partial", "Helium.C21_scoped_partial"], "note": "Refuted as stated: '<r><a xmlns:x=\"u\"/><x:b/></r>' is accepted with b in namespace u, and a second default namespace declaration is dropped. Partial, for every handler and input: up to the first general entity reference the URI reported with a start tag is the first declaration of its prefix in document order, and elements with undeclared prefixes are not reported; where the declarations of a prefix agree this is the scoping rule."},
{"property": "C22", "status": "partial", "theorems": ["Helium.C22_refuted", "Helium.C22_accepts_partial", "Helium.C22_read_back"], "note": "Read-back of everything the parser can produce is proved in full. That every legal XML declaration is accepted is refuted (white space before '?>'); all others are accepted with their values."},
{"property": "C23", "status": "partial", "theorems": ["Helium.C23_unambiguous", "Helium.C23_detected", "Helium.C23_consumes_bom_partial", "Helium.C23_bom_transparent", "Helium.C23_refuted"], "note": "A UTF-8 byte order mark is transparent for every handler and every plain UTF-8 document (C23_bom_transparent); a detected mark is consumed exactly (C23_consumes_bom_partial). The full claim fails: detection without a byte order mark also consumes the signature bytes of wide encodings (C23_refuted)."},
{"property": "C24", "status": "proved", "theorems": ["C24_encoding_lookup", "C24_unsupported_refused"], "note": ""},
{"property": "C25", "status": "proved", "theorems": ["Helium.C25_links_consistent", "Helium.C25_walk_children"], "note": "Every history of node creations and linking calls on unlinked nodes refines the abstract forest; child lists are doubly linked with right parents."},
{"property": "C26", "status": "proved", "theorems": ["Helium.C26_replace_substitutes", "Helium.C26_document_panics"], "note": "Replacement node must not be linked yet; frame condition for all other nodes."},
{"property": "C27", "status": "partial", "theorems": ["Helium.C27_no_adjacent_text", "Helium.C27_content_concatenated", "Helium.C27_merge_separates", "Helium.C27_refuted"], "note": "Proved for AddChild and AddContent. Refuted for AddSibling called on a node that is not a text while the last sibling is a text."},
{"property": "C28", "status": "proved", "theorems": ["Helium.C28_walk_preorder", "Helium.C28_walk_nil", "Helium.C28_walk_records"], "note": "Any callback with state; error at any point."},
{"property": "C29", "status": "partial", "theorems": ["Helium.C29_setTreeDoc_owns_partial", "Helium.C29_refuted"], "note": "Refuted when a node already owned by the target has an unowned descendant; proved for all other trees, with exact frame."},
{"property": "C30", "status": "proved", "theorems": ["Helium.C30_single_document_element", "Helium.C30_first_document_element", "Helium.C30_exactly_one"], "note": "Any sequence of SetDocumentElement calls on a document with at most one element child; the elements set must be unlinked or the current one."},
{"property": "C31", "status": "partial", "theorems": ["Helium.C31_refuted", "Helium.C31_refuted_parse", "Helium.C31_entities_partial", "Helium.C31_first_binding_partial", "Helium.C31_predefined"], "note": "Refuted: the table entry is overwritten, so the last declaration counts (witness at table level and on a parsed document). Proved for every history: the two tables are separate and show the last declaration, only types 1-5 are accepted; without redeclaration the full claim holds; references to the five predefined names always resolve to the predefined entities."},
{"property": "C32", "status": "proved", "theorems": ["Helium.C32_element_types", "Helium.C32_later_declarations"], "note": "For every history of entity, element and attribute declarations on a new DTD."},
{"property": "C33", "status": "partial", "theorems": ["Helium.C33_refuted", "Helium.C33_refuted_parse", "Helium.C33_attributes_partial"], "note": "Refuted: keys name:prefix:element collide for names with several colons. Proved for every history whose attribute names and prefixes are free of colons."},
{"property": "C34", "status": "proved", "theorems": ["C34_copy_content_model"], "note": ""},
{"property": "C35", "status": "partial", "theorems": ["C35_refuted", "C35_starred_lost", "C35_mixed_lost", "C35_first_group_panics", "C35_round_trip_partial"], "note": "As stated it is false: a single name with * or + and mixed content with a name are written in a form the parser refuses, and a content model with a lost first group makes the serialiser panic. Proved: for every declaration in the grammar of Spec/Content.lean outside these cases, the serialised declaration is read back with the same name, type and content model, for every handler."},
{"property": "C36", "status": "proved", "theorems": ["Helium.C36_nesting"], "note": "Every accepted children content model never has more than 129 parentheses open (128 below the outermost); for every input and state."},
{"property": "C37", "status": "partial", "theorems": ["C37_refuted", "C37_nesting_partial", "C37_recursion_partial", "C37_content_partial"], "note": "Refuted: an entity referring to itself makes stringToNodeList (values of attributes, TreeBuilder) recurse for ever (witness proved to diverge for every budget). Partial: in content no expansion nests deeper than 20 levels (equality with a parser whose allowance of nested expansions is explicit), and references to recursive entities are never accepted in content, for every handler. decodeEntitiesInternal is modelled only for entity values, where it never recurses."},
{"property": "C38", "status": "partial", "theorems": ["Helium.C38_declared_first", "Helium.C38_accepted_partial", "Helium.C38_refuted", "Helium.C77_defaults_partial"], "note": "An accepted document refers only to predefined or declared general entities, and with the tree builder every entity found was declared earlier in the event sequence. The full claim fails: a reference to an unknown entity makes Parse panic instead of returning an error (<a>&foo;</a>). Left out: NUL characters in the input. References in default values inside the DTD are covered by C77_defaults_partial. In attribute values of the root element the references stand for themselves."},
{"property": "C39", "status": "proved", "theorems": ["Helium.C39_content", "Helium.C39_attribute", "Helium.C39_attribute_value"], "note": "Content: any state, handler and following text. Attribute values: any point of any value; whole values for those made of literal characters and character/predefined references."},
{"property": "C40", "status": "partial", "theorems": ["C40_options_partial", "C40_refuted", "C40_refuted_loadSubset"], "note": "full claim is false: option bits overlap"},
{"property": "C41", "status": "proved", "theorems": ["C41_stack_lifo", "C41_unique_stack"], "note": ""},
{"property": "C42", "status": "partial", "theorems": ["Helium.C42_name", "Helium.C42_ncname", "Helium.C42_qname_partial", "Helium.C42_accepted", "Helium.C42_refuted"], "note": "Exact for parseName and parseNCName; a qualified name can have an empty local part after its colon (attribute b: accepted)."},
{"property": "C43", "status": "partial", "theorems": ["C43_normalize_partial", "C43_refuted", "C43_spaces_panic", "C43_idempotent"], "note": "full claim is false: a value of spaces only panics"},
{"property": "C44", "status": "proved", "theorems": ["Helium.C44_white_space", "Helium.C44_in_tree", "Helium.C45_tree_partial"], "note": "Any white space run in content in any state, any handler; the tree part is C45."},
{"property": "C45", "status": "partial", "theorems": ["Helium.C45_tree_entities_partial", "Helium.C45_tree_references_partial", "Helium.C45_tree_doctype_partial", "Helium.C45_tree_partial", "Helium.C45_tree_no_cdata_partial", "Helium.C45_refuted", "Helium.C45_pi_refuted"], "note": "Proved for every accepted document without a processing instruction inside the document type declaration: the heap below the returned document holds exactly the tree of the events, CDATA sections and the replacement text of entities left out (a reference to a declared entity is a leaf of the tree, and what its replacement text reports is balanced), and the internal subset holds the declarations reported. Full claim refuted twice: the tree builder drops CDATA sections, and a processing instruction inside the declaration breaks the links."},
{"property": "C46", "status": "proved", "theorems": ["C46_utf8_inverse"], "note": ""},
{"property": "C47", "status": "partial", "theorems": ["Helium.C47_refuted", "Helium.C47_same_partial", "Helium.C47_attribute_partial"], "note": "Refuted for end tags: white space before > is rejected. Holds in start tags, around = and around the root element."},
{"property": "C48", "status": "partial", "theorems": ["Helium.C48_tag_partial", "Helium.C48_refuted", "Helium.C48_value_unique", "Helium.C48_document_partial", "Helium.C48_sample_reference"], "note": "Accepted start tags have the shape name, some character, quoted value or nothing, for every attribute. The full claim fails: any character is accepted in place of '='. The reported value of each attribute follows from the text between the quotes (up to superfluous spaces if the attribute was declared). With the tree builder a reference to an entity that is not predefined is to a declared one and stands for itself, so that the text has one value only (C48_value_unique, C48_document_partial); with other handlers the value of such a reference is left open."},
{"property": "C49", "status": "partial", "theorems": ["Helium.C49_element_partial", "Helium.C49_refuted"], "note": "Accepted elements are delimited by tags of the same name, at all depths, except that '/>' directly after the start tag also ends an element, which refutes the full claim."},
{"property": "C50", "status": "partial", "theorems": ["Helium.C50_refuted", "Helium.C50_serialises_partial", "Helium.C50_parsed_partial", "Helium.C50_exactly_partial", "Helium.C50_doctype_partial", "Helium.C50_subset_partial", "Helium.C50_group_lost", "Helium.C50_entities_refused"], "note": "Refuted by the text 'textnoenc', by the content model ((b),c) and by attributes declared ENTITIES. For documents without document type declaration exactly: the serialiser succeeds, with the output given, if no text is that word, and panics otherwise. For documents with a document type declaration the same (without the exact output) if content models are complete and no attribute is declared ENTITIES. Missing: processing instructions inside the document type declaration, and attribute values with references to declared entities."},
{"property": "C51", "status": "proved", "theorems": ["Helium.C51_events", "Helium.C51_events_total", "Helium.C51_tree", "Helium.sample_document", "Helium.C51_dtd_events_partial"], "note": "The class of documents is defined by Spec.Document; where it is narrower than XML (documented there) the parser is narrower too or differs. C51_dtd_events_partial goes beyond the stated class: documents with a document type declaration (Spec.DtdDocument), without attribute list declarations and entity references, for handlers that take every event."},
{"property": "C52", "status": "partial", "theorems": ["C52_refuted", "C52_witness", "C52_unprefixed_never_mixed", "C52_prefixed_swapped", "C52_only_white_space_partial", "C52_tree_keeps"], "note": "Refuted: the declaration table is consulted with the element name although its keys are name:prefix, so for every history of declarations an unprefixed element is never found mixed, and p:l is treated as mixed exactly when l:p is declared so. Proved for every document and handler: only white space is reported as ignorable, and the tree builder treats it as character data."},
{"property": "C53", "status": "partial", "theorems": ["C53_element_partial", "C53_entity_partial", "C53_attlist_partial", "C53_declaration_partial", "C53_first_group_lost", "C53_star_dropped", "C53_no_content", "C53_refused", "C53_percent_lost", "C53_external_refused", "C53_subset_refused", "C53_blank_default_panics", "C53_empty_attlist_hangs", "C53_notation_hangs"], "note": "Proved for element type, internal entity and attribute list declarations in the grammars of Spec/Content.lean and Spec/Decl.lean: the handler is told exactly what is written. Witnesses for what is reported otherwise, refused or read for ever: a group as first member is lost, (a*)? loses its *, a missing content specification is accepted, groups with * or + and mixed content with several names are refused, entities with % in their value are not reported, external entities and subsets are refused, blank default values panic, empty attribute lists and notation declarations hang (enumerations too: C07_enum_hangs)."},
{"property": "C54", "status": "partial", "theorems": ["C54_supplied_partial", "C54_partial", "C54_refuted", "C54_twice", "C54_empty_lost"], "note": "Refuted: a default attribute is reported even if the tag has that attribute, and empty defaults are never supplied. Proved for all documents with an internal subset in the grammar of Spec/Decl.lean, and handlers that leave the heap alone: exactly the attributes declared with a non-empty default by the first declaration for the qualified name are added; hence C54 itself where the tags have none of them and no default is empty. Missing: element names with colons in attribute list declarations, attributes declared again with another type, tokenised values made of spaces."},
{"property": "C55", "status": "partial", "theorems": ["C55_partial", "C54_supplied_partial", "C55_refuted", "C55_last_type", "C55_prefixed_element", "C55_local_element", "C55_prefixed_attribute", "C55_spaces_crash"], "note": "Refuted: the last declared type counts instead of the first; declarations are looked up under local names; a value of references to spaces panics. Proved for documents whose elements with attributes, and attributes, have no prefix, with attributes declared again with the same type only; C54_supplied_partial says what happens with prefixes."},
{"property": "C56", "status": "proved", "theorems": ["C56_unset_callbacks", "C56_dispatch"], "note": "Callbacks the parser never makes are not in the table; a nil handler (SetSAXHandler(nil)) is not modelled."},
{"property": "C57", "status": "proved", "theorems": ["C57_observer", "C57_notes", "C57_tree"], "note": "The observer is any function of a state of its own, the event and the answer of the handler behind it."},
{"property": "C58", "status": "proved", "theorems": ["C58_handler", "C58_parse"], "note": "Budgets are the only bounds in the model; iteration order of maps is part of the environment and is kept."},
{"property": "C59", "status": "proved", "theorems": ["C59_parse", "C59_no_defaults", "C59_callbacks_depend"], "note": "The order is a field of the environment; the two runs share everything else. The map of special attributes (parserctx.go:3632) is filtered entry by entry, so its order cannot matter and is not a parameter."},
{"property": "C60", "status": "proved", "theorems": ["Helium.C60_attributes_are_no_children"], "note": "Every input, also when the parse fails."},
{"property": "C61", "status": "partial", "theorems": ["Helium.C61_doctype_partial", "Helium.C61_refuted"], "note": "Every accepted document type declaration belongs to the grammar LooseDoctype, which fixes the report of each declaration from its text and demands that the first reference was answered with an entity. The full claim fails: after one reference to a declared parameter entity, references to undeclared ones are accepted. Inputs with NUL characters are left out. The content model of an element type declaration, too, follows from its text in LooseDoctype, lost groups and overwritten marks included. So does the default value of an attribute."},
{"property": "C62", "status": "proved", "theorems": ["Helium.C62_rejected", "Helium.C62_accepted"], "note": "Every input, every table of decoders."},
{"property": "C63", "status": "proved", "theorems": ["Helium.C63_events", "Helium.C63_tree", "Helium.C63_same_report"], "note": "Any decoder; the encoding is named by one of the library's spellings (C65). Example latin_sample."},
{"property": "C64", "status": "partial", "theorems": ["Helium.C64_refuted", "Helium.C64_ascii_partial"], "note": "False: the serialiser writes UTF-8 whatever it declares, so <a>é</a> in ISO-8859-1 comes back as <a>Ã©</a>. True where all that is written is ASCII and the decoder leaves ASCII alone."},
{"property": "C65", "status": "partial", "theorems": ["Helium.C65_refuted", "Helium.C65_registered_partial", "Helium.C65_spellings_partial", "Helium.C65_distinct"], "note": "False for 17 registered names, e.g. KOI8-R and windows-1251; which names are taken is characterised exactly."},
{"property": "C66", "status": "partial", "theorems": ["Helium.C66_refuted", "Helium.C66_partial", "Helium.C66_twice_rejected", "Helium.C66_element_twice_rejected"], "note": "Refuted: an attribute declared twice makes Parse fail, although XML lets the first declaration bind. Proved for every document whose declarations meet Spec.Declarable (nothing declared twice, no name beginning with a colon, no colon in element names of attribute lists, xml:id of type ID, no processing instruction in the subset) and whose attribute values of non-CDATA type are not made of spaces only (Worded). CDATA sections are left out (C45), default attributes are not in the tree (C59). Entity references in content are not in the class."},
{"property": "C67", "status": "partial", "theorems": ["Helium.C67_refuted", "Helium.C67_partial", "Helium.C67_text_partial", "Helium.C67_entities", "Helium.C67_default_unescaped", "Helium.C67_default_empty", "Helium.C67_comment_moves"], "note": "Refuted: an attribute of type ENTITIES makes the serialiser fail; a default value with < and an empty default value are written so that Parse rejects the output; comments of the subset move behind it. Proved for every heap that holds a tree of the class of C09 with a document type declaration without external identifier whose declarations meet Declarable and Survives (no ENTITIES, no empty default value, no value with both kinds of quotes or with <, TAB, LF, CR; content models as in Kept) and where no entity is declared twice; attribute values must follow their declared types (Settled), which every parsed document does (C67_text_partial)."},
{"property": "C68", "status": "partial", "theorems": ["Helium.C68_refuted", "Helium.C68_events_partial", "Helium.table_remembers", "Helium.sample_refs", "Helium.C68_scope_refused", "Helium.C68_text_refused", "Helium.C68_nested_panics", "Helium.C68_element_taken"], "note": "Refuted: replacement text is read without the namespaces declared around the reference, so a prefix declared there is unknown in it. Proved for every handler that keeps the entities declared to it (Remembers: first declaration counts, a new node per lookup), every document with an internal subset without attribute lists, references nested at most 20 deep, replacement text using no outer prefixes: the document is accepted and exactly the expected events are reported. Parse itself refuses text as replacement text and panics at references inside replacement text."},
{"property": "C69", "status": "proved", "theorems": ["Helium.C69_values", "Helium.C69_defaults", "Helium.C69_meaning", "Helium.C69_declared"], "note": "For every run of the parser with the tree builder, including rejected documents; C69_declared shows that the restriction to documents without general entities is needed."},
{"property": "C70", "status": "proved", "theorems": ["Helium.C70_handle", "Helium.C70_blanks", "Helium.C70_values", "Helium.C70_untouched", "Helium.C70_no_reference"], "note": "handlePEReference, parseStringName, parseStringPEReference, parseStringEntityRef and decodeEntitiesInternal are modelled in full in Model/Parser/Strings; C70_blanks and C70_values justify that the parser model leaves them out. Assumption: ctx.external is false (no code sets it)."},
{"property": "C71", "status": "partial", "theorems": ["Helium.C71_outcome", "Helium.C71_stdin", "Helium.C71_finishes", "Helium.C71_success", "Helium.C71_error_unheard", "Helium.C71_intended_partial", "Helium.C71_opened_partial", "Helium.C71_refuted", "Helium.C71_truncated", "Helium.C71_status_refuted", "Helium.C71_command"], "note": "Every interleaving ends as the sequential specification says, in a bounded number of steps, and with status 0 exactly if every file was opened, read and parsed. Refuted for a file that cannot be opened: the goroutine sends the error before it closes the input channel, while the main goroutine is still receiving, so every run ends in a deadlock and the select never hears an error (C71_error_unheard). Holds as intended for lists of files that can all be opened. The status does not tell whether the output is complete, because the error of DumpDoc is dropped (C71_status_refuted)."},
{"property": "C72", "status": "proved", "theorems": ["Helium.C72_reported", "Helium.C72_accepted", "Helium.C72_no_type"], "note": "For every handler and every outcome of the parse the data of a reported declaration fit together; for documents accepted with the tree builder an element has one of the four types, with a content model exactly for mixed and element content. With other handlers a declaration without content specification is reported with type 0 (C72_no_type), which the statement allows."},
{"property": "C73", "status": "proved", "theorems": ["C73_element", "C73_document", "C73_budget"], "note": "Heaps whose unallocated cells are blank (BlankBeyond; in the code there are no unallocated nodes). C73_budget shows that the depth budget of the model never changes the outcome: if the serialiser does not return within depth size+1, it does not return at all. Other kinds of nodes with children (DTD, entity, attribute outside an element) are covered by C73_budget and by the appending lemma only."},
{"property": "C74", "status": "partial", "theorems": ["C74_close_partial", "C74_refuted", "C74_opt_star", "C74_text_partial", "C74_text_refuted", "C74_accepted_partial", "C74_lost_group"], "note": "False as stated: a group of one name marked *, followed by ? or +, loses the * ((a*)? is built as a?, (a*)+ as a+). C74_close_partial proves it for all other groups, for the function that closes a group; that all operators of a group are the same is a hypothesis (the code refuses groups with both separators). Groups followed by * or + are refused afterwards because the mark is not consumed (C53_refused), so for these the claim concerns the function, not accepted documents. C74_text_partial: a declaration of element content, as far as the parser reads it, is reported with a content model that allows exactly the sequences XML gives the text (Spec Written, a second reading of productions [47]-[50] as sets of sequences). C74_accepted_partial: in every accepted document, whatever is declared and whatever the parser loses, the content model reported for a declaration of element content allows only sequences the declaration allows (inputs without NUL)."},
{"property": "C75", "status": "partial", "theorems": ["C75_plain_partial", "C75_laughs", "C75_refuted"], "note": "False as stated: entityCheck is empty, only the nesting of entities is limited. C75_laughs gives for every m and every k up to 20 a document of at most (k+1)*(22m+35) bytes that is accepted and makes at least m^k events with a handler that keeps declared entities. C75_plain_partial: at most one event for each byte and three more, if there is no document type declaration and the handler answers no lookup with an entity (any handler, any accepted input without NUL characters)."},
{"property": "C76", "status": "partial", "theorems": ["C76_reserved_partial", "C76_prefix_partial", "C76_xml_renamed", "C76_default_unchecked", "C76_default_attribute", "C76_attributes_unchecked", "C76_xml_refused", "C76_refuted"], "note": "False as stated: another prefix may be bound to the namespace of xml, the default namespace is not checked at all, and its declaration is also reported as an attribute unless it is the last (no continue in parserctx.go:743-755). C76_reserved_partial: for every handler and outcome, prefixes reported as declared or used by elements are neither xml nor xmlns, are bound to a non-empty URI other than that of xmlns, and declarations of prefixes are not attributes. C76_prefix_partial puts this as the rule itself for namespaces other than that of xml."},
{"property": "C77", "status": "partial", "theorems": ["C77_references_partial", "C77_defaults_partial", "C77_reading", "C77_sample", "C77_sample_default", "C77_refuted"], "note": "False as stated: a value with a reference to an entity whose text is `<` is accepted (C77_refuted). C77_references_partial proves the rest for every run with the tree builder: values are legal characters, `&#38;`, and references to internal general entities, names without colon, whose declaration was reported before the tag. C77_reading: the pieces are determined by the value. C77_defaults_partial: the same of the values in attribute declarations, the entities being declared before the attribute."}
]}

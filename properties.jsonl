{"id": "C01", "title": "Parse result is a document xor one wrapped error", "statement": "Parser.Parse never returns both a document and an error: on error the document is nil, and the error is always an ErrParseError whose cause is not itself an ErrParseError (wrapped exactly once, at the innermost place).", "quantifier": "every byte sequence, every SAX handler, whatever errors the handler returns", "why_tests_cant": "The error is wrapped at dozens of return sites and re-wrapped on every enclosing level; a test sees only the paths it takes.", "anchors": ["parser.go:Parser.Parse", "parserctx.go:parserCtx.error", "parserctx.go:parseDocument"]}
{"id": "C02", "title": "SAX element events are well bracketed", "statement": "In the sequence of SAX callbacks made during one Parse, StartElementNS/EndElementNS calls nest properly, each EndElementNS carries exactly the local name, prefix and URI of the StartElementNS it closes, and when Parse succeeds every element has been closed and there is exactly one root element.", "quantifier": "every byte sequence, every SAX handler, successful and failing parses (failing: the sequence is a prefix of a well bracketed one)", "why_tests_cant": "Needs induction over arbitrarily deep nesting and over every interleaving of content, references and errors.", "anchors": ["parserctx.go:parseElement", "parserctx.go:parseStartTag", "parserctx.go:parseEndTag", "parserctx.go:parseContent"]}
{"id": "C03", "title": "SAX document envelope", "statement": "SetDocumentLocator is the first callback, StartDocument precedes every content callback and happens at most once, EndDocument happens at most once, is the last callback, and happens in every successful parse.", "quantifier": "every byte sequence, every SAX handler", "why_tests_cant": "Ordering has to hold on every path through the prolog, including malformed ones.", "anchors": ["parserctx.go:parseDocument"]}
{"id": "C04", "title": "A handler error aborts the parse", "statement": "As soon as a SAX callback returns an error (other than 'handler unspecified') from a notification callback, no further callback is made and Parse fails.", "quantifier": "every byte sequence, every SAX handler, every position at which the handler fails", "why_tests_cant": "The failure point ranges over every event of every document; swallowed errors are invisible to the tests that exist.", "anchors": ["parserctx.go:parserCtx", "sax/sax2.go"]}
{"id": "C05", "title": "A successful parse has consumed the whole input", "statement": "If Parse succeeds then nothing but white space, comments and processing instructions follows the root element, up to the end of the input.", "quantifier": "every byte sequence, every SAX handler", "why_tests_cant": "Universally quantified over trailing junk.", "anchors": ["parserctx.go:parseDocument", "parserctx.go:parseMisc"]}
{"id": "C06", "title": "Only legal XML characters reach the application as character data", "statement": "Every rune passed to Characters or IgnorableWhitespace while parsing content is a legal XML Char; CDATA sections too.", "quantifier": "every byte sequence, every handler, every text run, character reference and CDATA section", "why_tests_cant": "The set of illegal characters and the places they can appear is unbounded.", "anchors": ["parserctx.go:parseCharData", "parserctx.go:isChar", "parserctx.go:parseReference", "parserctx.go:parseCDSect"]}
{"id": "C07", "title": "Parsing terminates", "statement": "Parse returns (or panics) on every finite input; no input makes it loop for ever.", "quantifier": "every byte sequence", "why_tests_cant": "Termination is not testable.", "anchors": ["parserctx.go:parseContent", "parserctx.go:parseStartTag", "parserctx.go:parseNmtoken", "parserctx.go:parseInternalSubset", "parserctx.go:parseCharData"]}
{"id": "C08", "title": "Parsing never panics", "statement": "Parse reports malformed input with an error and never panics.", "quantifier": "every byte sequence, with the default tree builder", "why_tests_cant": "Absence of panics needs all inputs; the panics found need inputs nobody tests.", "anchors": ["parserctx.go:parseEntityRef", "parserctx.go:parseStringCharRef", "parserctx.go:attrNormalizeSpace", "parserctx.go:parseStartTag", "tree.go:StartElementNS"]}
{"id": "C09", "title": "DOM to text to DOM round trip", "statement": "Serialising a document with DumpDoc and parsing the output gives back the same tree: same elements, attribute lists, text and comments in the same order.", "quantifier": "every document made of elements, attributes, text and comments with legal names and characters, of any size and depth", "why_tests_cant": "Unbounded trees and strings.", "anchors": ["dump.go:Dumper.DumpDoc", "dump.go:Dumper.DumpNode", "parserctx.go:parseDocument", "tree.go"]}
{"id": "C10", "title": "Text escaping is reversible and unambiguous", "statement": "The escaped form of a text node contains no '<', no '>' and no '&' other than at the start of a character or predefined entity reference, and decoding the references gives back exactly the original text.", "quantifier": "every text made of legal XML characters", "why_tests_cant": "Quantifies over all strings, including multi-byte characters and the boundaries between escaped and raw segments.", "anchors": ["dump.go:escapeText"]}
{"id": "C11", "title": "Attribute escaping is reversible and survives attribute value normalisation", "statement": "The escaped form of an attribute value contains no '\"', '<', tab, CR or LF, and parsing it back as an attribute value (with white space normalisation) gives exactly the original value.", "quantifier": "every attribute value made of legal XML characters", "why_tests_cant": "All strings.", "anchors": ["dump.go:escapeAttrValue", "parserctx.go:parseAttributeValueInternal"]}
{"id": "C12", "title": "Escaping is total and its output is well formed", "statement": "escapeText and escapeAttrValue accept arbitrary bytes and always produce valid UTF-8 consisting of legal XML characters; each undecodable byte or illegal character becomes exactly one U+FFFD.", "quantifier": "every byte sequence, valid UTF-8 or not", "why_tests_cant": "All byte strings; the escape loop keeps two indices that must stay in step.", "anchors": ["dump.go:escapeText", "dump.go:escapeAttrValue", "dump.go:isInCharacterRange"]}
{"id": "C13", "title": "Quoted literals keep their content", "statement": "A string written by the serialiser as a quoted literal (namespace URIs, entity values, system identifiers) reads back as the same string.", "quantifier": "every string, in particular those containing both kinds of quotes", "why_tests_cant": "All strings.", "anchors": ["dump.go:dumpQuotedString"]}
{"id": "C14", "title": "Comments are delivered verbatim and must be terminated", "statement": "A comment is accepted only if it is closed by '-->' and contains no '--', and the Comment callback gets exactly the bytes between the delimiters.", "quantifier": "every input following '<!--'", "why_tests_cant": "All strings; end of input can come anywhere.", "anchors": ["parserctx.go:parseComment"]}
{"id": "C15", "title": "Processing instructions survive", "statement": "A processing instruction is accepted only when closed by '?>', target and data are delivered unchanged, and serialising the tree writes the same instruction.", "quantifier": "every target and data", "why_tests_cant": "All strings.", "anchors": ["parserctx.go:parsePI", "tree.go:ProcessingInstruction", "dump.go:DumpNode"]}
{"id": "C16", "title": "CDATA content is not lost", "statement": "The text of a CDATA section is delivered to the application exactly and is part of the parsed tree.", "quantifier": "every CDATA section", "why_tests_cant": "All strings and positions.", "anchors": ["parserctx.go:parseCDSect", "tree.go:CDataBlock"]}
{"id": "C17", "title": "Line ends are normalised", "statement": "In character data every CR LF pair is delivered as a single LF; no CR LF pair is ever delivered for literal text.", "quantifier": "every text run", "why_tests_cant": "Sequences of CR of any length.", "anchors": ["parserctx.go:parseCharData"]}
{"id": "C18", "title": "Character references denote the number written", "statement": "A decimal or hexadecimal character reference is accepted only if the number written is a legal XML character, and delivers exactly that character.", "quantifier": "every digit string of any length", "why_tests_cant": "Overflow needs arbitrarily long digit strings.", "anchors": ["parserctx.go:parseCharRef", "parserctx.go:parseStringCharRef", "document.go:stringToNodeList"]}
{"id": "C19", "title": "No element has two attributes with the same name", "statement": "After any sequence of SetAttribute calls, and in every tree built by Parse, attribute names of an element are pairwise distinct; a rejected SetAttribute leaves the attribute list unchanged.", "quantifier": "every sequence of operations, every input", "why_tests_cant": "Invariant over histories.", "anchors": ["element.go:SetAttribute", "tree.go:StartElementNS"]}
{"id": "C20", "title": "Attributes keep their order and values", "statement": "Attributes() lists attributes in the order they were set; a value without references reads back unchanged.", "quantifier": "every sequence of SetAttribute calls, every value", "why_tests_cant": "Histories of any length.", "anchors": ["element.go:SetAttribute", "element.go:Attributes", "document.go:CreateAttribute", "attr.go"]}
{"id": "C21", "title": "Namespace declarations are scoped to their element", "statement": "The namespace URI of an element is the one given by the innermost declaration of its prefix on the element or its ancestors, and an element with an undeclared prefix is rejected.", "quantifier": "every document, every nesting of declarations", "why_tests_cant": "Scopes nest arbitrarily.", "anchors": ["parserctx.go:parseStartTag", "parserctx.go:parseEndTag", "internal/stack/nsstack/nsstack.go"]}
{"id": "C22", "title": "XML declaration round trip", "statement": "Version, encoding and standalone written by the serialiser are read back by the parser as the same values, and a legal XML declaration is accepted.", "quantifier": "every version number, encoding name and standalone value the parser can produce", "why_tests_cant": "All strings.", "anchors": ["dump.go:dumpDocContent", "parserctx.go:parseXMLDecl"]}
{"id": "C23", "title": "A UTF-8 byte order mark is transparent", "statement": "Prefixing a UTF-8 document with a BOM does not change the result of Parse; encoding detection answers for each input at most one encoding and consumes exactly the BOM.", "quantifier": "every byte sequence", "why_tests_cant": "All inputs, overlapping patterns.", "anchors": ["parserctx.go:detectEncoding", "parserctx.go:parseDocument"]}
{"id": "C24", "title": "Encoding names are looked up case-insensitively and unsupported ones are refused", "statement": "encoding.Load depends only on the lower-cased name; names outside the table give no encoding, and Parse then fails instead of decoding with a wrong table.", "quantifier": "every name", "why_tests_cant": "All strings.", "anchors": ["encoding/encoding.go:Load", "parserctx.go:switchEncoding"]}
{"id": "C25", "title": "Tree links stay consistent", "statement": "After building a tree with AddChild/AddSibling/AddContent/SetDocumentElement of new nodes, the children of every node form one doubly linked list from FirstChild to LastChild with correct parents, in insertion order.", "quantifier": "every sequence of operations", "why_tests_cant": "Histories of any length over a pointer structure.", "anchors": ["node.go:addChild", "node.go:addSibling", "document.go:SetDocumentElement"]}
{"id": "C26", "title": "Replace substitutes one node", "statement": "n.Replace(cur) with a fresh cur puts cur exactly at n's place in the child list and leaves all other links alone.", "quantifier": "every child list and position", "why_tests_cant": "Any list length, first/middle/last position.", "anchors": ["node.go:replaceNode"]}
{"id": "C27", "title": "Adjacent text is merged", "statement": "Appending text after text extends the existing text node; no tree built by appending has two adjacent text siblings, and Content() of the parent is the concatenation of everything appended.", "quantifier": "every sequence of appends", "why_tests_cant": "Histories.", "anchors": ["node.go:addChild", "text.go:Text.AddSibling", "text.go:Text.AddChild"]}
{"id": "C28", "title": "Walk visits the whole subtree in document order", "statement": "Walk calls the function exactly once for each node of the subtree in pre-order and stops at the first error, returning it.", "quantifier": "every tree, every callback", "why_tests_cant": "All trees.", "anchors": ["node.go:Walk"]}
{"id": "C29", "title": "SetTreeDoc re-owns a whole subtree", "statement": "After n.SetTreeDoc(d) every node in the subtree of n reports d as owner document.", "quantifier": "every tree, every previous ownership", "why_tests_cant": "All trees.", "anchors": ["node.go:setTreeDoc", "node.go:setListDoc"]}
{"id": "C30", "title": "A document has one document element", "statement": "After any sequence of SetDocumentElement calls the document has exactly one element child, the last one set, and its other children are untouched.", "quantifier": "every sequence of calls", "why_tests_cant": "Histories.", "anchors": ["document.go:SetDocumentElement"]}
{"id": "C31", "title": "Entity declarations: binding and separation", "statement": "The five predefined entities cannot be redeclared, general and parameter entities live in separate tables, and when an entity is declared more than once the first declaration is binding.", "quantifier": "every sequence of declarations", "why_tests_cant": "Histories.", "anchors": ["dtd.go:AddEntity", "document.go:GetEntity", "entity.go:resolvePredefinedEntity"]}
{"id": "C32", "title": "Element types are declared once and consistently", "statement": "A second declaration of the same element type is rejected; EMPTY/ANY declarations have no content model, mixed/children declarations have one; other declarations are unaffected by an added one.", "quantifier": "every sequence of declarations", "why_tests_cant": "Histories.", "anchors": ["dtd.go:AddElementDecl", "document.go:IsMixedElement"]}
{"id": "C33", "title": "Attribute declarations of different attributes do not interfere", "statement": "Declaring an attribute never makes the declaration of a different (element, prefix, name) triple fail or visible under another triple.", "quantifier": "every pair of names", "why_tests_cant": "All strings; the table key is built by concatenation.", "anchors": ["dtd.go:RegisterAttribute", "dtd.go:LookupAttribute", "parserctx.go:addSpecialAttribute"]}
{"id": "C34", "title": "Copying a content model gives an equal, independent model", "statement": "The copy of an element content model has the same shape, names and occurrence marks, whatever its size.", "quantifier": "every content model", "why_tests_cant": "Recursive structure of any depth.", "anchors": ["valid.go:copyElementContent"]}
{"id": "C35", "title": "Content models survive serialisation", "statement": "Parsing the serialised form of an element declaration gives back the declared content model.", "quantifier": "every content model", "why_tests_cant": "Recursive structure.", "anchors": ["parserctx.go:parseElementChildrenContentDeclPriv", "dump.go:dumpElementContent"]}
{"id": "C36", "title": "Nesting of content models is bounded", "statement": "A content model nested deeper than 128 groups is rejected.", "quantifier": "every input", "why_tests_cant": "Unbounded nesting.", "anchors": ["parserctx.go:parseElementChildrenContentDeclPriv"]}
{"id": "C37", "title": "Entity recursion is bounded", "statement": "A self- or mutually recursive entity is rejected rather than expanded for ever: expansion never nests deeper than 40 levels.", "quantifier": "every set of entity declarations", "why_tests_cant": "All entity graphs.", "anchors": ["parserctx.go:parseBalancedChunkInternal", "parserctx.go:decodeEntitiesInternal"]}
{"id": "C38", "title": "References to undeclared entities are rejected", "statement": "A reference to an entity that is neither predefined nor declared makes Parse return an error.", "quantifier": "every entity name, every position in content or attribute value", "why_tests_cant": "All names.", "anchors": ["parserctx.go:parseEntityRef", "parserctx.go:getEntity"]}
{"id": "C39", "title": "Predefined entities deliver their character", "statement": "&lt; &gt; &amp; &apos; &quot; in content are delivered as the single character they denote, in attribute values they end up in the attribute value.", "quantifier": "every context and every surrounding text", "why_tests_cant": "All surroundings.", "anchors": ["parserctx.go:parseReference", "parserctx.go:parseAttributeValueInternal", "entity.go"]}
{"id": "C40", "title": "Parse options are independent flags", "statement": "Setting one option does not change whether any other option is set.", "quantifier": "every set of options set in any order", "why_tests_cant": "All sequences over the whole option table.", "anchors": ["bitset.go", "interface.go:ParseOption", "interface.go:LoadSubsetOption"]}
{"id": "C41", "title": "Namespace and node stacks behave as stacks", "statement": "Push/Pop/Peek on the parser's stacks implement last-in-first-out lists whatever the interleaving and however the backing array is reallocated; a unique stack never holds two entries with one key and lookup finds the entry pushed for the key.", "quantifier": "every sequence of operations", "why_tests_cant": "Histories.", "anchors": ["internal/stack/stack.go", "internal/stack/simple.go", "internal/stack/unique.go", "stack.go"]}
{"id": "C42", "title": "Names are bounded in length", "statement": "No element, attribute or entity name longer than 50000 characters is accepted, and accepted names start with a name start character and continue with name characters.", "quantifier": "every input", "why_tests_cant": "All strings.", "anchors": ["parserctx.go:parseName", "parserctx.go:parseNCName", "parserctx.go:parseQName"]}
{"id": "C43", "title": "Attribute value space normalisation", "statement": "Normalising a tokenised attribute value removes leading and trailing spaces and collapses inner runs to one space, and is idempotent.", "quantifier": "every value", "why_tests_cant": "All strings.", "anchors": ["parserctx.go:attrNormalizeSpace"]}
{"id": "C44", "title": "White space is kept", "statement": "White space between elements is delivered (as ignorable white space or characters) and is part of the tree; nothing is dropped.", "quantifier": "every white space run", "why_tests_cant": "All strings.", "anchors": ["parserctx.go:areBlanks", "parserctx.go:parseCharData", "tree.go:IgnorableWhitespace"]}
{"id": "C45", "title": "The tree built is the tree described by the events", "statement": "The tree returned by Parse contains exactly the elements, attributes, namespaces, text and comments reported by the SAX events, nested and ordered in the same way, with consistent links.", "quantifier": "every event sequence the parser can produce", "why_tests_cant": "All documents.", "anchors": ["tree.go:TreeBuilder", "parserctx.go"]}
{"id": "C46", "title": "UTF-8 coding is inverse", "statement": "Decoding the UTF-8 encoding of a sequence of Unicode scalar values gives back that sequence, and every decoding step consumes at least one byte.", "quantifier": "every sequence of scalar values, every byte string", "why_tests_cant": "1.1 million characters, all sequences.", "anchors": ["dump.go:escapeText", "parserctx.go"]}
{"id": "C47", "title": "White space handling inside tags", "statement": "White space is allowed where XML allows it (before '>' in an end tag, around '=' in attributes, before '?>' in the XML declaration) without changing the result.", "quantifier": "every run of white space at each place", "why_tests_cant": "All runs.", "anchors": ["parserctx.go:parseEndTag", "parserctx.go:parseStartTag", "parserctx.go:parseAttribute", "parserctx.go:parseXMLDecl"]}
{"id": "C48", "title": "Attribute syntax is enforced", "statement": "A start tag is accepted only if every attribute has '=' and a quoted value.", "quantifier": "every start tag", "why_tests_cant": "All strings.", "anchors": ["parserctx.go:parseAttribute", "parserctx.go:parseAttributeValue"]}
{"id": "C49", "title": "Mismatched or missing end tags are rejected", "statement": "An element with content is accepted only if its content is followed by '</' name '>', with exactly the name of the start tag.", "quantifier": "every element, every content", "why_tests_cant": "All strings.", "anchors": ["parserctx.go:parseElement", "parserctx.go:parseEndTag"]}
{"id": "C50", "title": "Serialising is a pure read", "statement": "Serialising a document never fails or panics for a document produced by Parse, and writes the same bytes each time.", "quantifier": "every parsed document", "why_tests_cant": "All documents.", "anchors": ["dump.go"]}
{"id": "C51", "title": "Well-formed documents are accepted and reported faithfully", "statement": "Every UTF-8 document without document type declaration built from the productions in Spec/Source.lean and Spec/Document.lean (optional BOM and XML declaration, comments and PIs around the root element, elements with attributes and prefixed namespace declarations, character data, references, comments, PIs, CDATA sections) is parsed without error; the handler gets exactly the events the text stands for, in order, and Parse returns a document holding exactly that tree with the declared version, encoding and standalone status.", "quantifier": "every such document of any size and nesting depth, every handler that accepts the events, the default tree builder", "why_tests_cant": "infinitely many documents; completeness and faithfulness of a parser for a grammar can only be sampled by tests", "anchors": ["parserctx.go:375-577", "parserctx.go:579-760", "tree.go:46-176"]}
{"id": "C52", "title": "White space in mixed content is character data", "statement": "White space between the children of an element declared with mixed content is reported as character data, never as ignorable white space.", "quantifier": "every document whose internal subset declares the element with mixed content", "why_tests_cant": "All documents and declarations; the lookup key depends on the shape of the name.", "anchors": ["parserctx.go:areBlanks", "document.go:IsMixedElement", "dtd.go:LookupElement"]}
{"id": "C53", "title": "Declarations are reported as written", "statement": "Every element type, attribute list and entity declaration of the internal subset is reported to the handler exactly as written: same name, same type, same content model, same default, same replacement text.", "quantifier": "every declaration in the grammar of XML 1.0", "why_tests_cant": "Content models are recursive and values are unbounded.", "anchors": ["parserctx.go:parseElementDecl", "parserctx.go:parseElementChildrenContentDeclPriv", "parserctx.go:parseEntityDecl", "parserctx.go:parseAttributeListDecl"]}
{"id": "C54", "title": "Default attributes are supplied", "statement": "For every element, each attribute that its element type declares with a default value and that its start tag does not have is reported with that value, and no other attribute is added.", "quantifier": "every document with an internal subset, every handler", "why_tests_cant": "All combinations of declarations, redeclarations and tags; the order is that of a Go map.", "anchors": ["parserctx.go:parseStartTag", "parserctx.go:addAttributeDefault", "parserctx.go:parseAttributeListDecl", "parserctx.go:lookupAttributeDefault"]}
{"id": "C55", "title": "Values of tokenised attributes are normalised", "statement": "The value of an attribute whose binding declaration has another type than CDATA is reported with single spaces between its words only; every other value is reported as it is in the tag.", "quantifier": "every document with an internal subset, every handler", "why_tests_cant": "Values and declarations are unbounded; the lookup key is built from two names.", "anchors": ["parserctx.go:parseAttribute", "parserctx.go:attrNormalizeSpace", "parserctx.go:addSpecialAttribute", "parserctx.go:lookupSpecialAttribute", "parserctx.go:cleanSpecialAttributes"]}
{"id": "C56", "title": "Unset SAX callbacks have no effect", "statement": "Parsing with a SAX2 table in which some callbacks are not set gives the same document, error and events as parsing with a table in which those callbacks do nothing and return nil, or, for the two lookups, return any error. Each event reaches the callback registered for it with its arguments in order.", "quantifier": "every input, every table of callbacks, every state of the callbacks", "why_tests_cant": "There are 2^18 tables, arbitrary callbacks, and some twenty-five places where the answer of a callback is examined.", "anchors": ["sax/sax2.go", "parserctx.go:switch err := s.X(...)"]}
{"id": "C57", "title": "Observing a parse does not change it", "statement": "A handler that passes every callback on to another one and records it gives the same document, error and events, and its record is the sequence of callbacks. In particular a SAX2 table that forwards to the tree builder builds the document that Parse builds.", "quantifier": "every input, every handler, every way of recording", "why_tests_cant": "Non-interference is about pairs of runs over all inputs and handlers.", "anchors": ["sax/sax2.go", "parser.go:Parse", "parserctx.go"]}
{"id": "C58", "title": "A parse has one result", "statement": "The result of a parse does not depend on how long one waits for it: once it has returned within some number of steps, it returns the same document, error and events within any larger number.", "quantifier": "every input, every handler, all budgets", "why_tests_cant": "It is about all budgets; without it a statement about some budget says nothing about the program.", "anchors": ["parserctx.go:parseContent", "document.go:stringToNodeList", "tree.go:StartElementNS"]}
{"id": "C59", "title": "The tree does not depend on map iteration order", "statement": "Go iterates over the map of default attributes of an element in an unspecified order. Parse gives the same document, the same error and the same heap of nodes for every such order, and the callbacks of two runs differ at most in the order of the default attributes of a start tag. The reason is that default attributes never get into the tree: the tree builder gives the same result when it is not told about them. A SAX handler, on the other hand, can see the order.", "quantifier": "every input, every pair of iteration orders", "why_tests_cant": "The order is chosen by the runtime; a test sees some orders, never all, and a failure is not reproducible.", "anchors": ["parserctx.go:832", "parserctx.go:addAttributeDefault", "tree.go:106"]}
{"id": "C60", "title": "Attributes never end up among children", "statement": "In the heap left behind by Parse, first and last child pointers, sibling pointers of nodes that are not attributes, and the entity and element declaration tables lead to existing nodes that are not attributes.", "quantifier": "every input, whether or not the parse succeeds, document type declarations and entity expansion included", "why_tests_cant": "AddChild accepts any node; the claim is an invariant of all tree mutations made during a parse.", "anchors": ["tree.go", "node.go:addChild", "document.go:stringToNodeList", "dtd.go"]}
{"id": "C61", "title": "References to parameter entities are to declared entities", "statement": "In an accepted document, an internal subset refers only to parameter entities that have been declared earlier in it; and the whole document type declaration, taken apart into declarations, comments, processing instructions and references, is reported piece by piece, each report following from the text of its piece.", "quantifier": "every accepted input, every handler", "why_tests_cant": "The set of document type declarations is infinite and the parser has many loopholes; only a grammar proved to cover every accepted input shows that there are no others.", "anchors": ["parserctx.go:parseDocTypeDecl", "parserctx.go:parseInternalSubset", "parserctx.go:parsePEReference", "parserctx.go:parseMarkupDecl"]}
{"id": "C62", "title": "xml:id is declared with type ID or not at all", "statement": "If a document type declaration gives an attribute named xml:id a type other than ID, that declaration is the last thing reported, Parse returns no document, and the error says that xml:id must have type ID. So in every accepted document each declaration of xml:id has type ID.", "quantifier": "every input", "why_tests_cant": "It speaks about every place in every document type declaration where the attribute may be declared.", "anchors": ["tree.go:307", "parserctx.go:parseAttributeListDecl"]}
{"id": "C63", "title": "Documents in other encodings mean what their decoded text says", "statement": "A well-formed document without document type declaration whose XML declaration names an encoding the library knows is accepted if everything after the XML declaration, decoded with that encoding, is well-formed; the events and the tree are those of the decoded text, the document remembers version, encoding and standalone status, and the same text in two encodings is reported alike.", "quantifier": "every such document, every known encoding with any decoder, every handler that does not fail", "why_tests_cant": "The claim is about all documents in all encodings, including where the decoder takes over in the middle of the input.", "anchors": ["parserctx.go:switchEncoding", "parserctx.go:detectEncoding", "parserctx.go:parseXMLDecl", "encoding/encoding.go"]}
{"id": "C64", "title": "Serialised documents are in the encoding they declare", "statement": "What XMLString writes for a document whose encoding is one the library knows is read back by Parse as the same tree.", "quantifier": "every plain document and every known encoding", "why_tests_cant": "The output depends on every character of the tree; a test in ASCII text or UTF-8 passes.", "anchors": ["dump.go", "node.go", "parserctx.go:switchEncoding"]}
{"id": "C65", "title": "Encodings are found under their registered names", "statement": "encoding.Load finds each character set it implements under the name registered for it with IANA, in any letter case; no name stands for two character sets, and no other names are taken than the listed spellings.", "quantifier": "every name, every character set", "why_tests_cant": "All strings are possible names, in all letter cases.", "anchors": ["encoding/encoding.go"]}
{"id": "C66", "title": "Documents with a document type declaration are accepted and returned faithfully", "statement": "Parse accepts every UTF-8 document with an internal subset built from the productions in Spec/Decl.lean (element, attribute list and entity declarations, comments); the document returned holds exactly the tree of the text, with attribute values normalised by declared type, and its document type declaration holds the declarations in order, each with its data, entities with literal and replacement text.", "quantifier": "every such document of any size, with any number of declarations of any kind, any Unicode tables", "why_tests_cant": "infinitely many documents and combinations of declarations; the declaration tables, the attribute tables of the parser and the tree interact over the whole run", "anchors": ["parserctx.go:2013-2136", "tree.go:214-380", "tree.go:431-560", "dtd.go:21-165", "document.go:CreateInternalSubset"]}
{"id": "C67", "title": "Documents with a document type declaration survive serialisation", "statement": "A document with an internal subset that holds some tree and some declarations is serialised to bytes that Parse accepts, and the document read back holds the same tree, the same declarations (element types, attributes, entities with literal and value) in the same order, and the version, encoding and standalone status written; serialising that document gives the same bytes.", "quantifier": "every document built from comments, elements, attributes, text, namespace declarations and any number of element, attribute and entity declarations, however it was built, any Unicode tables", "why_tests_cant": "infinitely many trees and declarations, content models of any depth, values with any characters and quotes; the reader, the tables of declarations and the writer must agree on all of them", "anchors": ["dump.go:252-284", "dump.go:286-580", "dump.go:205-222", "dtd.go:21-165", "tree.go:214-380"]}
{"id": "C68", "title": "References to declared entities stand for their replacement text", "statement": "A document whose content refers to general entities declared in its internal subset, directly or through other entities, is accepted, and a SAX handler that keeps the declared entities gets, in place of each reference, the events of the replacement text of the first declaration of that name, read with the namespaces in scope at the reference.", "quantifier": "every document of any size with any number of entities and references nested to any depth, every handler that keeps declared entities, any Unicode tables", "why_tests_cant": "infinitely many documents and ways to nest entities; the parser keeps the handler's tree, its own namespace and element stacks and the remaining input across nested parsers", "anchors": ["parserctx.go:4036-4290", "parserctx.go:4827-4960", "parserctx.go:3960-4034"]}
{"id": "C69", "title": "Attribute values handed over are legal characters with escaped ampersands", "statement": "While a document has not declared a general entity, every attribute value that Parse hands to the tree builder, in start tags and in attribute declarations, in accepted and in rejected documents, is the UTF-8 form of a sequence of legal characters in which every ampersand is written &#38;, so that it stands for exactly one text.", "quantifier": "every input, accepted or rejected, any document type declaration without general entities, any Unicode tables", "why_tests_cant": "infinitely many inputs; character references, predefined entities, white space normalisation by declared type, and the lookup through two tables all feed the same buffer", "anchors": ["parserctx.go:919-1104", "parserctx.go:698-868", "parserctx.go:3571-3660"]}
{"id": "C70", "title": "Parameter entity handling between tokens and in strings has no side effects", "statement": "While the document entity is read, skipping white space consumes white space only: in every parser state a following % is neither consumed nor reported nor looked up. Decoding references in a string replaces character references only: it never calls the handler, never changes the parser or the tree, never expands an entity, and fails if the string has another reference of the kind to be substituted.", "quantifier": "every parser state, every number of inputs, every string, every handler, any Unicode tables", "why_tests_cant": "the code after the switch and the recursive expansion can only be reached in combinations of state, input stack and string that no test enumerates; the model of the parser relies on their absence", "anchors": ["parserctx.go:1106-1131", "parserctx.go:4982-5110", "parserctx.go:2909-2981", "parserctx.go:4465-4498", "parserctx.go:4565-4731"]}
{"id": "C71", "title": "helium-lint behaves as if it handled its files one after another", "statement": "However its two goroutines interleave, helium-lint writes the serialisation of the files in order up to the first one that cannot be opened, read or parsed, reports that failure on standard error and returns 1; it returns 0 exactly if every file was opened, read and parsed; and it always ends unless the parser itself does not return.", "quantifier": "every list of files, every interleaving of the two goroutines, every behaviour of the parser and serialiser on each file", "why_tests_cant": "a test runs one schedule per execution; a missed message on an unbuffered channel depends on the order of close, send and select", "anchors": ["cmd/helium-lint/helium-lint.go:35-98"]}
{"id": "C72", "title": "The data of reported declarations fit together", "statement": "Every declaration reported to the handler is of a kind the specification knows: an attribute has one of the ten types and one of the four kinds of default, tokens are listed exactly for enumerations and notations, #REQUIRED and #IMPLIED come without value; an entity is an internal general or parameter entity (or taken for external) with no colon in its name and no identifiers; EMPTY and ANY elements come without content model. In a document accepted with the tree builder every declared element has one of the four types and a content model exactly if it is mixed or element content.", "quantifier": "every input, every handler, every outcome of the parse, any Unicode tables", "why_tests_cant": "the integer codes of types and kinds are set in separate branches of several functions and only combine in the calls of the handler; a test looks at the combinations it lists", "anchors": ["parserctx.go:2356-2483", "parserctx.go:3034-3263", "parserctx.go:3826-3930", "dtd.go:45-80"]}
{"id": "C73", "title": "Serialisation is compositional", "statement": "XMLString of an element is '<', its name, its namespace declarations and its attributes in order, and '/>' if it has no children, otherwise '>', what XMLString gives for each child, in order, and the end tag; it succeeds exactly if it does for all children. A document is its XML declaration followed by each child's serialisation on a line of its own. What a node is written as does not depend on what was written before. An attribute's value is made of the escaped texts and the serialisations of the other nodes under it.", "quantifier": "every heap of nodes, also with shared nodes and cycles, every node of it", "why_tests_cant": "it relates the output for a tree to the outputs for all its subtrees, for trees of every shape and size, including malformed ones; a test compares one output with one expected string", "anchors": ["element.go:55-66", "dump.go:610-738", "dump.go:205-222"]}
{"id": "C74", "title": "Normalising a content model keeps its meaning", "statement": "The model built for a group followed by ?, * or + allows exactly the sequences of children of the group, as often as the mark says; in particular the normalisations (a | b* | c?)* == (a | b | c)* and (a | b*)+ == (a | b)* made by the parser keep the meaning.", "quantifier": "every group of any size and nesting, every mark, every sequence of children", "why_tests_cant": "equality of two infinite sets of sequences, for content models of any depth", "anchors": ["parserctx.go:2794-2868"]}
{"id": "C75", "title": "The number of events is proportional to the size of the input", "statement": "There is a constant c such that a successful parse of n bytes reports at most c*(n+1) events (lookups of entities not counted), whatever the document: entities that refer to entities do not let a small input grow without bound.", "quantifier": "every handler, input, budget; one constant for all", "why_tests_cant": "a bound that holds for inputs of every size; refuting it takes a family of inputs of growing size, the larger ones making more events than any test could run", "anchors": ["parserctx.go:4951-4958", "parserctx.go:4036-4180", "parserctx.go:3960-4034"]}
{"id": "C76", "title": "Names reserved by Namespaces in XML are respected", "statement": "No start tag is reported that declares or uses a binding which Namespaces in XML forbids: xml is bound to its own namespace only and that to no other prefix, neither xmlns nor its namespace is ever bound, no prefix is bound to the empty name, the prefix of an element is bound, and declarations are not reported as attributes.", "quantifier": "every handler, input, budget; successful and failing parses; start tags in replacement text of entities too", "why_tests_cant": "the namespace table is shared by all open elements and by the contexts that expand entities; that nothing forbidden ever enters it is an invariant over every prefix of every parse", "anchors": ["parserctx.go:743-804", "parserctx.go:838-849", "interface.go:6"]}
{"id": "C77", "title": "References in attribute values are to internal entities declared before, whose text has no `<`", "statement": "In the value of every attribute written in a start tag or declared as a default, as handed to the application, each character is legal, each ampersand is written `&#38;` or begins a reference; each reference names, without colon, a general entity declared in the document before the tag or the attribute declaration as an internal entity, whose text has no `<`; and what characters and references the value is made of can be told from the value.", "quantifier": "every input, budget and outcome of a parse with the tree builder; tags in replacement text of entities too", "why_tests_cant": "which entities a name can resolve to depends on every declaration, lookup and handler call before it; that tables only ever hold declared entities under their own name is an invariant over all runs", "anchors": ["parserctx.go:919-1036", "parserctx.go:4827-4910", "parserctx.go:4504-4530", "tree.go:257-270", "dtd.go:21-43", "document.go:247-262", "parserctx.go:3826-3927"]}

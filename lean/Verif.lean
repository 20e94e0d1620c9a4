import Verif.Lemmas.Accept
import Verif.Lemmas.AcceptDtd
import Verif.Lemmas.AcceptEnt
import Verif.Lemmas.AcceptModel
import Verif.Lemmas.AcceptTag
import Verif.Lemmas.Accepted
import Verif.Lemmas.Alike
import Verif.Lemmas.Answers
import Verif.Lemmas.AttDoc
import Verif.Lemmas.AttOK
import Verif.Lemmas.AttTab
import Verif.Lemmas.AttrRun
import Verif.Lemmas.Bracket
import Verif.Lemmas.ChunkFrame
import Verif.Lemmas.ChunkTb
import Verif.Lemmas.ContentDump
import Verif.Lemmas.ContentRun
import Verif.Lemmas.DeclEvents
import Verif.Lemmas.DeclRun
import Verif.Lemmas.DocElem
import Verif.Lemmas.DocLogic
import Verif.Lemmas.DomHist
import Verif.Lemmas.DomOps
import Verif.Lemmas.DomText
import Verif.Lemmas.DtdDoc
import Verif.Lemmas.DtdDocDump
import Verif.Lemmas.DtdDump
import Verif.Lemmas.DtdInfo
import Verif.Lemmas.DtdRun
import Verif.Lemmas.DtdWrites
import Verif.Lemmas.DumpParts
import Verif.Lemmas.DumpRun
import Verif.Lemmas.DumpSrc
import Verif.Lemmas.EncodedRun
import Verif.Lemmas.EntLogic
import Verif.Lemmas.EntityRun
import Verif.Lemmas.Escape
import Verif.Lemmas.EscapeRead
import Verif.Lemmas.Expand
import Verif.Lemmas.ExpandLoop
import Verif.Lemmas.Flags
import Verif.Lemmas.Forward
import Verif.Lemmas.HeapOps
import Verif.Lemmas.KernelRfl
import Verif.Lemmas.LexRun
import Verif.Lemmas.LinkAttr
import Verif.Lemmas.LinkSimp
import Verif.Lemmas.Links
import Verif.Lemmas.Logic
import Verif.Lemmas.LogicContent
import Verif.Lemmas.LogicDoc
import Verif.Lemmas.LogicLex
import Verif.Lemmas.LogicSat
import Verif.Lemmas.Marker
import Verif.Lemmas.MarkupRun
import Verif.Lemmas.NameRun
import Verif.Lemmas.NsLogic
import Verif.Lemmas.NsNames
import Verif.Lemmas.Pieces
import Verif.Lemmas.RefRun
import Verif.Lemmas.Run
import Verif.Lemmas.SaxPhases
import Verif.Lemmas.SetDoc
import Verif.Lemmas.Shows
import Verif.Lemmas.Sim
import Verif.Lemmas.SimBudget
import Verif.Lemmas.SimParse
import Verif.Lemmas.SourceContent
import Verif.Lemmas.SourceDoc
import Verif.Lemmas.SourceRun
import Verif.Lemmas.SubsetRun
import Verif.Lemmas.Tabs
import Verif.Lemmas.TbDoctype
import Verif.Lemmas.TbDtd
import Verif.Lemmas.TbErr
import Verif.Lemmas.TbRun
import Verif.Lemmas.TbSubset
import Verif.Lemmas.TbWilling
import Verif.Lemmas.Total
import Verif.Lemmas.TotalContent
import Verif.Lemmas.TotalDoc
import Verif.Lemmas.TotalDtd
import Verif.Lemmas.TotalLex
import Verif.Lemmas.TotalTree
import Verif.Lemmas.TraceLogic
import Verif.Lemmas.TreeInv
import Verif.Lemmas.TreeLogic
import Verif.Lemmas.TreeParse
import Verif.Lemmas.Typed
import Verif.Lemmas.Utf8
import Verif.Lemmas.ValLogic
import Verif.Lemmas.ValueFrame
import Verif.Lemmas.ValueRun
import Verif.Lemmas.WordsRun
import Verif.Lemmas.WriteSrc
import Verif.Lemmas.XmlDeclVals
import Verif.Model.Base
import Verif.Model.Dom
import Verif.Model.Dump
import Verif.Model.Encoding
import Verif.Model.Env
import Verif.Model.Escape
import Verif.Model.Heap
import Verif.Model.Lint
import Verif.Model.NodeString
import Verif.Model.Parser.Content
import Verif.Model.Parser.Decl
import Verif.Model.Parser.Dtd
import Verif.Model.Parser.Lex
import Verif.Model.Parser.Strings
import Verif.Model.Sax2
import Verif.Model.Small
import Verif.Model.StdEnv
import Verif.Model.TreeBuilder
import Verif.Model.Utf8
import Verif.Props.Accept
import Verif.Props.AcceptDtd
import Verif.Props.Attr
import Verif.Props.AttrRefs
import Verif.Props.Atts
import Verif.Props.Bom
import Verif.Props.Content
import Verif.Props.Decl
import Verif.Props.DefaultNs
import Verif.Props.Depth
import Verif.Props.Dom
import Verif.Props.Dtd
import Verif.Props.DtdDump
import Verif.Props.Dump
import Verif.Props.Encoded
import Verif.Props.Entity
import Verif.Props.Escape
import Verif.Props.Expand
import Verif.Props.Growth
import Verif.Props.Lint
import Verif.Props.Markup
import Verif.Props.Mixed
import Verif.Props.ModelAccepted
import Verif.Props.ModelLang
import Verif.Props.Ns
import Verif.Props.NsNames
import Verif.Props.Order
import Verif.Props.Parts
import Verif.Props.Refs
import Verif.Props.Sax
import Verif.Props.Sax2
import Verif.Props.Small
import Verif.Props.Source
import Verif.Props.Strings
import Verif.Props.Total
import Verif.Props.TotalDtd
import Verif.Props.Tree
import Verif.Props.TreeDtd
import Verif.Props.Values
import Verif.Props.WriteLoss
import Verif.Props.WriteSource
import Verif.Props.Writes
import Verif.Props.XmlId
import Verif.Spec.Accepted
import Verif.Spec.AcceptedDtd
import Verif.Spec.Attr
import Verif.Spec.Atts
import Verif.Spec.Content
import Verif.Spec.Decl
import Verif.Spec.Document
import Verif.Spec.Dom
import Verif.Spec.DomOp
import Verif.Spec.Dtd
import Verif.Spec.DtdTree
import Verif.Spec.Encoded
import Verif.Spec.Expand
import Verif.Spec.Growth
import Verif.Spec.ModelLang
import Verif.Spec.Name
import Verif.Spec.Ns
import Verif.Spec.NsNames
import Verif.Spec.Order
import Verif.Spec.Parts
import Verif.Spec.Pieces
import Verif.Spec.Plain
import Verif.Spec.Refs
import Verif.Spec.Sax
import Verif.Spec.Sax2
import Verif.Spec.Source
import Verif.Spec.Total
import Verif.Spec.Tree
import Verif.Spec.Words
import Verif.Spec.Writable
import Verif.Spec.Xml

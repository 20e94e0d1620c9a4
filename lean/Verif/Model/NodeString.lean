import Verif.Model.Dump
/-! Serialising a part of a document. -/
namespace Helium

/-- `Element.XMLString` (/repo/element.go:55-66), and `Dumper.DumpNode` into an empty buffer for other nodes (/repo/dump.go:610-738). -/
def nodeString (h : Heap) (n : Nat) : Out Bytes Unit := dumpNode h (h.size + 1) n []

end Helium

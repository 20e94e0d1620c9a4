import Verif.Model.Utf8
/-! Words of an attribute value, and values with single spaces (XML 1.0, 3.3.3). -/
namespace Helium

/-- the words of a value: maximal runs of non-space bytes. The accumulator is the word being read, reversed. -/
def words : Bytes → Bytes → List Bytes
  | [], [] => []
  | acc, [] => [acc.reverse]
  | [], c :: t => if c = 32 then words [] t else words [c] t
  | acc, c :: t => if c = 32 then acc.reverse :: words [] t else words (c :: acc) t

/-- words joined by single spaces. -/
def unwords : List Bytes → Bytes
  | [] => []
  | [w] => w
  | w :: ws => w ++ 32 :: unwords ws

end Helium

import Verif.Model.Go
namespace Gotit.Spec
open Gotit

/-- The pieces of a text between separators `sep`. -/
def splitAt (sep : UInt8) : Bytes → List Bytes
  | [] => [[]]
  | c :: cs =>
    if c = sep then [] :: splitAt sep cs
    else match splitAt sep cs with
      | [] => [[c]]
      | w :: ws => (c :: w) :: ws

end Gotit.Spec

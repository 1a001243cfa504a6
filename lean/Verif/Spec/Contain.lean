import Verif.Spec.Resolve

/-!
# Paths that stay below the directory they start from

Specification file.
-/

namespace Verif.Rfc

/-- Walks through the segments of a relative path, `depth` directories below the place where the walk
started: `.` stays, `..` (both in any percent-encoded spelling) goes up, anything else (the empty segment
too) goes down.  `false` if the walk ever leaves the place where it started. -/
def staysBelow (depth : Nat) : List Str → Bool
  | [] => true
  | s :: rest =>
    if pctDecode s = [0x2E] then staysBelow depth rest
    else if pctDecode s = [0x2E, 0x2E] then depth != 0 && staysBelow (depth - 1) rest
    else staysBelow (depth + 1) rest

example : staysBelow 0 (splitSlash (chars! "a/../b/./c/..")) = true := by decide +kernel
example : staysBelow 0 (splitSlash (chars! "a/%2e./.%2E/a/b")) = false := by decide +kernel
example : staysBelow 0 (splitSlash (chars! "..")) = false := by decide +kernel
example : staysBelow 0 (splitSlash (chars! "...")) = true := by decide +kernel

end Verif.Rfc

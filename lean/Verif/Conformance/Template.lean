import Verif.Conformance.Harness

/-! Generated by `tools/conformance.py` from `/repo/tests/template.rs`.  Tests of the model, not proofs. -/

namespace Verif.Conformance

def rfc6570Context : Tpl.Ctx := Tpl.Ctx.ofSimple (simple [
  ((chars! "count"), .list [(chars! "one"), (chars! "two"), (chars! "three")]),
  ((chars! "dom"), .list [(chars! "example"), (chars! "com")]),
  ((chars! "dub"), .string (chars! "me/too")),
  ((chars! "hello"), .string (chars! "Hello World!")),
  ((chars! "half"), .string (chars! "50%")),
  ((chars! "var"), .string (chars! "value")),
  ((chars! "who"), .string (chars! "fred")),
  ((chars! "base"), .string (chars! "http://example.com/home/")),
  ((chars! "path"), .string (chars! "/foo/bar")),
  ((chars! "list"), .list [(chars! "red"), (chars! "green"), (chars! "blue")]),
  ((chars! "keys"), .assoc [((chars! "semi"), (chars! ";")), ((chars! "dot"), (chars! ".")), ((chars! "comma"), (chars! ","))]),
  ((chars! "v"), .string (chars! "6")),
  ((chars! "x"), .string (chars! "1024")),
  ((chars! "y"), .string (chars! "768")),
  ((chars! "empty"), .string (chars! "")),
  ((chars! "empty_keys"), .assoc []),
  ((chars! "undef"), .undefined)])

def rfc6570Cases : List (Str × Str) := [
  ((chars! "{count}"), (chars! "one,two,three")),
  ((chars! "{count*}"), (chars! "one,two,three")),
  ((chars! "{/count}"), (chars! "/one,two,three")),
  ((chars! "{/count*}"), (chars! "/one/two/three")),
  ((chars! "{;count}"), (chars! ";count=one,two,three")),
  ((chars! "{;count*}"), (chars! ";count=one;count=two;count=three")),
  ((chars! "{?count}"), (chars! "?count=one,two,three")),
  ((chars! "{?count*}"), (chars! "?count=one&count=two&count=three")),
  ((chars! "{&count*}"), (chars! "&count=one&count=two&count=three")),
  ((chars! "{var}"), (chars! "value")),
  ((chars! "{hello}"), (chars! "Hello%20World%21")),
  ((chars! "{half}"), (chars! "50%25")),
  ((chars! "O{empty}X"), (chars! "OX")),
  ((chars! "O{undef}X"), (chars! "OX")),
  ((chars! "{x,y}"), (chars! "1024,768")),
  ((chars! "{x,hello,y}"), (chars! "1024,Hello%20World%21,768")),
  ((chars! "?{x,empty}"), (chars! "?1024,")),
  ((chars! "?{x,undef}"), (chars! "?1024")),
  ((chars! "?{undef,y}"), (chars! "?768")),
  ((chars! "{var:3}"), (chars! "val")),
  ((chars! "{var:30}"), (chars! "value")),
  ((chars! "{list}"), (chars! "red,green,blue")),
  ((chars! "{list*}"), (chars! "red,green,blue")),
  ((chars! "{keys}"), (chars! "semi,%3B,dot,.,comma,%2C")),
  ((chars! "{keys*}"), (chars! "semi=%3B,dot=.,comma=%2C")),
  ((chars! "{+var}"), (chars! "value")),
  ((chars! "{+hello}"), (chars! "Hello%20World!")),
  ((chars! "{+half}"), (chars! "50%25")),
  ((chars! "{base}index"), (chars! "http%3A%2F%2Fexample.com%2Fhome%2Findex")),
  ((chars! "{+base}index"), (chars! "http://example.com/home/index")),
  ((chars! "O{+empty}X"), (chars! "OX")),
  ((chars! "O{+undef}X"), (chars! "OX")),
  ((chars! "{+path}/here"), (chars! "/foo/bar/here")),
  ((chars! "here?ref={+path}"), (chars! "here?ref=/foo/bar")),
  ((chars! "up{+path}{var}/here"), (chars! "up/foo/barvalue/here")),
  ((chars! "{+x,hello,y}"), (chars! "1024,Hello%20World!,768")),
  ((chars! "{+path,x}/here"), (chars! "/foo/bar,1024/here")),
  ((chars! "{+path:6}/here"), (chars! "/foo/b/here")),
  ((chars! "{+list}"), (chars! "red,green,blue")),
  ((chars! "{+list*}"), (chars! "red,green,blue")),
  ((chars! "{+keys}"), (chars! "semi,;,dot,.,comma,,")),
  ((chars! "{+keys*}"), (chars! "semi=;,dot=.,comma=,")),
  ((chars! "{#var}"), (chars! "#value")),
  ((chars! "{#hello}"), (chars! "#Hello%20World!")),
  ((chars! "{#half}"), (chars! "#50%25")),
  ((chars! "foo{#empty}"), (chars! "foo#")),
  ((chars! "foo{#undef}"), (chars! "foo")),
  ((chars! "{#x,hello,y}"), (chars! "#1024,Hello%20World!,768")),
  ((chars! "{#path,x}/here"), (chars! "#/foo/bar,1024/here")),
  ((chars! "{#path:6}/here"), (chars! "#/foo/b/here")),
  ((chars! "{#list}"), (chars! "#red,green,blue")),
  ((chars! "{#list*}"), (chars! "#red,green,blue")),
  ((chars! "{#keys}"), (chars! "#semi,;,dot,.,comma,,")),
  ((chars! "{#keys*}"), (chars! "#semi=;,dot=.,comma=,")),
  ((chars! "{.who}"), (chars! ".fred")),
  ((chars! "{.who,who}"), (chars! ".fred.fred")),
  ((chars! "{.half,who}"), (chars! ".50%25.fred")),
  ((chars! "www{.dom*}"), (chars! "www.example.com")),
  ((chars! "X{.var}"), (chars! "X.value")),
  ((chars! "X{.empty}"), (chars! "X.")),
  ((chars! "X{.undef}"), (chars! "X")),
  ((chars! "X{.var:3}"), (chars! "X.val")),
  ((chars! "X{.list}"), (chars! "X.red,green,blue")),
  ((chars! "X{.list*}"), (chars! "X.red.green.blue")),
  ((chars! "X{.keys}"), (chars! "X.semi,%3B,dot,.,comma,%2C")),
  ((chars! "X{.keys*}"), (chars! "X.semi=%3B.dot=..comma=%2C")),
  ((chars! "X{.empty_keys}"), (chars! "X")),
  ((chars! "X{.empty_keys*}"), (chars! "X")),
  ((chars! "{/who}"), (chars! "/fred")),
  ((chars! "{/who,who}"), (chars! "/fred/fred")),
  ((chars! "{/half,who}"), (chars! "/50%25/fred")),
  ((chars! "{/who,dub}"), (chars! "/fred/me%2Ftoo")),
  ((chars! "{/var}"), (chars! "/value")),
  ((chars! "{/var,empty}"), (chars! "/value/")),
  ((chars! "{/var,undef}"), (chars! "/value")),
  ((chars! "{/var,x}/here"), (chars! "/value/1024/here")),
  ((chars! "{/var:1,var}"), (chars! "/v/value")),
  ((chars! "{/list}"), (chars! "/red,green,blue")),
  ((chars! "{/list*}"), (chars! "/red/green/blue")),
  ((chars! "{/list*,path:4}"), (chars! "/red/green/blue/%2Ffoo")),
  ((chars! "{/keys}"), (chars! "/semi,%3B,dot,.,comma,%2C")),
  ((chars! "{/keys*}"), (chars! "/semi=%3B/dot=./comma=%2C")),
  ((chars! "{;who}"), (chars! ";who=fred")),
  ((chars! "{;half}"), (chars! ";half=50%25")),
  ((chars! "{;empty}"), (chars! ";empty")),
  ((chars! "{;v,empty,who}"), (chars! ";v=6;empty;who=fred")),
  ((chars! "{;v,bar,who}"), (chars! ";v=6;who=fred")),
  ((chars! "{;x,y}"), (chars! ";x=1024;y=768")),
  ((chars! "{;x,y,empty}"), (chars! ";x=1024;y=768;empty")),
  ((chars! "{;x,y,undef}"), (chars! ";x=1024;y=768")),
  ((chars! "{;hello:5}"), (chars! ";hello=Hello")),
  ((chars! "{;list}"), (chars! ";list=red,green,blue")),
  ((chars! "{;list*}"), (chars! ";list=red;list=green;list=blue")),
  ((chars! "{;keys}"), (chars! ";keys=semi,%3B,dot,.,comma,%2C")),
  ((chars! "{;keys*}"), (chars! ";semi=%3B;dot=.;comma=%2C")),
  ((chars! "{?who}"), (chars! "?who=fred")),
  ((chars! "{?half}"), (chars! "?half=50%25")),
  ((chars! "{?x,y}"), (chars! "?x=1024&y=768")),
  ((chars! "{?x,y,empty}"), (chars! "?x=1024&y=768&empty=")),
  ((chars! "{?x,y,undef}"), (chars! "?x=1024&y=768")),
  ((chars! "{?var:3}"), (chars! "?var=val")),
  ((chars! "{?list}"), (chars! "?list=red,green,blue")),
  ((chars! "{?list*}"), (chars! "?list=red&list=green&list=blue")),
  ((chars! "{?keys}"), (chars! "?keys=semi,%3B,dot,.,comma,%2C")),
  ((chars! "{?keys*}"), (chars! "?semi=%3B&dot=.&comma=%2C")),
  ((chars! "{&who}"), (chars! "&who=fred")),
  ((chars! "{&half}"), (chars! "&half=50%25")),
  ((chars! "?fixed=yes{&x}"), (chars! "?fixed=yes&x=1024")),
  ((chars! "{&x,y,empty}"), (chars! "&x=1024&y=768&empty=")),
  ((chars! "{&x,y,undef}"), (chars! "&x=1024&y=768")),
  ((chars! "{&var:3}"), (chars! "&var=val")),
  ((chars! "{&list}"), (chars! "&list=red,green,blue")),
  ((chars! "{&list*}"), (chars! "&list=red&list=green&list=blue")),
  ((chars! "{&keys}"), (chars! "&keys=semi,%3B,dot,.,comma,%2C")),
  ((chars! "{&keys*}"), (chars! "&semi=%3B&dot=.&comma=%2C"))]

example : (rfc6570Cases.all fun c => expands .uri rfc6570Context c.1 c.2) = true := by decide +kernel

def prefixContext : Tpl.Ctx := Tpl.Ctx.ofSimple (simple [
  ((chars! "abcdef"), .string (chars! "%61%62%63%64%65%66")),
  ((chars! "invalid1"), .string (chars! "%CE%CE%B1%B1%CE%CE%B2%B2")),
  ((chars! "invalid2"), .string (chars! "%ff%ff%ff%ff%ff%ff"))])

def prefixCases : List (Str × Str) := [
  ((chars! "{abcdef:4}"), (chars! "%2561%25")),
  ((chars! "{+abcdef:4}"), (chars! "%61%62%63%64")),
  ((chars! "{invalid1:2}"), (chars! "%25C")),
  ((chars! "{invalid1:4}"), (chars! "%25CE%25")),
  ((chars! "{+invalid1:2}"), (chars! "%CE%CE%B1")),
  ((chars! "{+invalid1:4}"), (chars! "%CE%CE%B1%B1%CE")),
  ((chars! "{invalid2:2}"), (chars! "%25f")),
  ((chars! "{invalid2:4}"), (chars! "%25ff%25")),
  ((chars! "{+invalid2:2}"), (chars! "%ff%ff")),
  ((chars! "{+invalid2:4}"), (chars! "%ff%ff%ff%ff"))]

example : (prefixCases.all fun c => expands .uri prefixContext c.1 c.2) = true := by decide +kernel

def incompleteContext : Tpl.Ctx := Tpl.Ctx.ofSimple (simple [
  ((chars! "incomplete1"), .string (chars! "%ce%b1%")),
  ((chars! "incomplete2"), .string (chars! "%ce%b1%c")),
  ((chars! "incomplete3"), .string (chars! "%ce%b1%ce"))])

def incompleteCases : List (Str × Str) := [
  ((chars! "{incomplete1:1}"), (chars! "%25")),
  ((chars! "{incomplete1:2}"), (chars! "%25c")),
  ((chars! "{incomplete1:3}"), (chars! "%25ce")),
  ((chars! "{incomplete1:4}"), (chars! "%25ce%25")),
  ((chars! "{+incomplete1:1}"), (chars! "%ce%b1")),
  ((chars! "{+incomplete1:2}"), (chars! "%ce%b1%25")),
  ((chars! "{+incomplete2:1}"), (chars! "%ce%b1")),
  ((chars! "{+incomplete2:2}"), (chars! "%ce%b1%25")),
  ((chars! "{+incomplete2:3}"), (chars! "%ce%b1%25c")),
  ((chars! "{+incomplete3:1}"), (chars! "%ce%b1")),
  ((chars! "{+incomplete3:2}"), (chars! "%ce%b1%ce")),
  ((chars! "{+incomplete3:3}"), (chars! "%ce%b1%ce"))]

example : (incompleteCases.all fun c => expands .uri incompleteContext c.1 c.2) = true := by decide +kernel

/-- `MyContext` of `fragmented_write`: every character is written by itself. -/
def fragmentedContext : Tpl.Ctx := fun _ name =>
  if name == (chars! "incomplete1") then .string ((chars! "%ce%b1%").map fun c => [c])
  else if name == (chars! "incomplete2") then .string ((chars! "%ce%b1%c").map fun c => [c])
  else if name == (chars! "incomplete3") then .string ((chars! "%ce%b1%ce").map fun c => [c])
  else .undefined

def fragmentedCases : List (Str × Str) := [
  ((chars! "{incomplete1:1}"), (chars! "%25")),
  ((chars! "{incomplete1:2}"), (chars! "%25c")),
  ((chars! "{incomplete1:3}"), (chars! "%25ce")),
  ((chars! "{incomplete1:4}"), (chars! "%25ce%25")),
  ((chars! "{+incomplete1:1}"), (chars! "%ce%b1")),
  ((chars! "{+incomplete1:2}"), (chars! "%ce%b1%25")),
  ((chars! "{+incomplete2:1}"), (chars! "%ce%b1")),
  ((chars! "{+incomplete2:2}"), (chars! "%ce%b1%25")),
  ((chars! "{+incomplete2:3}"), (chars! "%ce%b1%25c")),
  ((chars! "{+incomplete3:1}"), (chars! "%ce%b1")),
  ((chars! "{+incomplete3:2}"), (chars! "%ce%b1%ce")),
  ((chars! "{+incomplete3:3}"), (chars! "%ce%b1%ce"))]

example : (fragmentedCases.all fun c => expands .uri fragmentedContext c.1 c.2) = true := by decide +kernel

/-- `github_issue_39`: the state records the two callbacks. -/
example : (match Tpl.expand_dynamic_to_string .uri true
      (⟨fun _ _ s => (.undefined, s), fun s => (true, s.2), fun s => (s.1, true)⟩ :
        Tpl.DynCtx (Bool × Bool)) (chars! "hello/{world}") (false, false) with
    | some (.ok s, st) => s == (chars! "hello/") && st == (true, true)
    | _ => false) = true := by decide +kernel

end Verif.Conformance

import Verif.Model.Base

/-! # `isValidURL` (utils.go:224-236), with the parts of net/url it reaches

`url.ParseRequestURI` and `url.Parse` are modelled from the source of the standard library (Go 1.15 to 1.24).  Only what
`isValidURL` looks at is kept of the result: whether there is an error, the scheme, and whether the host is empty. -/

namespace Xgen

/-- `ishex` (net/url, reached from utils.go:225, 230). -/
def isHex (c : Char) : Bool := isAsciiDigit c || (97 ≤ c.toNat && c.toNat ≤ 102) || (65 ≤ c.toNat && c.toNat ≤ 70)

/-- `unhex` (net/url, reached from utils.go:225, 230). -/
def unhex (c : Char) : Nat :=
  if isAsciiDigit c then c.toNat - 48 else if 97 ≤ c.toNat then c.toNat - 87 else c.toNat - 55

/-- `shouldEscape(c, encodeHost)` for ASCII characters (net/url, reached from utils.go:225, 230). -/
def hostEscapes (c : Char) : Bool :=
  !(isAsciiLetter c || isAsciiDigit c || c!"!$&'()*+,;=:[]<>\"-_.~".contains c)

/-- The modes of `unescape` that make a difference (net/url, reached from utils.go:225, 230). -/
inductive Escape where
  | host
  | zone
  | other
deriving DecidableEq

/-- `unescape(s, mode)` has no error (net/url, reached from utils.go:225, 230). -/
def unescapeOk (m : Escape) : Str → Bool
  | [] => true
  | c :: rest =>
    if c = '%' then
      match rest with
      | a :: b :: rest =>
        if !isHex a || !isHex b then false
        else if m = .host && unhex a < 8 && !(a = '2' && b = '5') then false
        else if m = .zone && !(a = '2' && b = '5') && (unhex a * 16 + unhex b ≠ 32) && (unhex a * 16 + unhex b < 128) &&
            hostEscapes (Char.ofNat (unhex a * 16 + unhex b)) then false
        else unescapeOk m rest
      | _ => false
    else if m ≠ .other && c.toNat < 128 && hostEscapes c then false
    else unescapeOk m rest

/-- The part of a string after the last occurrence of a character, or all of it (`strings.LastIndex` in net/url, reached from
utils.go:225, 230). -/
def afterLast (c : Char) (s : Str) : Str := (s.reverse.takeWhile (· ≠ c)).reverse

/-- The part of a string before the last occurrence of a character (`strings.LastIndex` in net/url, reached from
utils.go:225, 230). -/
def beforeLast (c : Char) (s : Str) : Str := ((s.reverse.dropWhile (· ≠ c)).drop 1).reverse

/-- `validOptionalPort` (net/url, reached from utils.go:225, 230). -/
def validOptionalPort : Str → Bool
  | [] => true
  | c :: ds => c = ':' && ds.all isAsciiDigit

/-- The length of the part of a string before the first `%25` (`strings.Index` in net/url, reached from utils.go:225, 230). -/
def zoneIndex : Str → Option Nat
  | [] => none
  | c :: cs => if hasPrefix (c :: cs) c!"%25" then some 0 else (zoneIndex cs).map (· + 1)

/-- `parseHost` has no error (net/url, reached from utils.go:225, 230). -/
def parseHostOk (host : Str) : Bool :=
  if hasPrefix host c!"[" then
    if !host.contains ']' then false
    else if !validOptionalPort (afterLast ']' host) then false
    else
      match zoneIndex (beforeLast ']' host) with
      | some k =>
        unescapeOk .host ((beforeLast ']' host).take k) && unescapeOk .zone ((beforeLast ']' host).drop k) &&
          unescapeOk .host (']' :: afterLast ']' host)
      | none => unescapeOk .host host
  else if host.contains ':' && !validOptionalPort (':' :: afterLast ':' host) then false
  else unescapeOk .host host

/-- `validUserinfo` (net/url, reached from utils.go:225, 230). -/
def validUserinfo (s : Str) : Bool := s.all fun c => isAsciiLetter c || isAsciiDigit c || c!"-._:~!$&'()*+,;=%@".contains c

/-- `parseAuthority` (net/url, reached from utils.go:225, 230): the host, before percent signs are decoded, which does not
make it empty; `none` is an error. -/
def parseAuthority (authority : Str) : Option Str :=
  if !authority.contains '@' then if parseHostOk authority then some authority else none
  else if !parseHostOk (afterLast '@' authority) then none
  else
    let userinfo := beforeLast '@' authority
    if !validUserinfo userinfo then none
    else if !unescapeOk .other (userinfo.takeWhile (· ≠ ':')) then none
    else if !unescapeOk .other ((userinfo.dropWhile (· ≠ ':')).drop 1) then none
    else some (afterLast '@' authority)

/-- Characters of a scheme after the first (net/url, reached from utils.go:225, 230). -/
def isSchemeChar (c : Char) : Bool := isAsciiLetter c || isAsciiDigit c || c = '+' || c = '-' || c = '.'

/-- `getScheme` (net/url, reached from utils.go:225, 230): scheme and rest; `none` is an error.  The loop over the characters
is written with `takeWhile`. -/
def getScheme (raw : Str) : Option (Str × Str) :=
  match raw with
  | [] => some ([], [])
  | c :: _ =>
    if c = ':' then none
    else if !isAsciiLetter c then some ([], raw)
    else
      match raw.dropWhile isSchemeChar with
      | d :: rest => if d = ':' then some (raw.takeWhile isSchemeChar, rest) else some ([], raw)
      | [] => some ([], raw)

/-- `stringContainsCTLByte` (net/url, reached from utils.go:225, 230). -/
def hasControl (s : Str) : Bool := s.any fun c => c.toNat < 32 || c.toNat = 127

/-- `parse(rawURL, viaRequest)` (net/url, reached from utils.go:225, 230): scheme and host; `none` is an error. -/
def urlParse (viaRequest : Bool) (raw : Str) : Option (Str × Str) :=
  if hasControl raw then none
  else if raw = [] && viaRequest then none
  else if raw = c!"*" then some ([], [])
  else
    match getScheme raw with
    | none => none
    | some (scheme, rest) =>
      let rest := rest.takeWhile (· ≠ '?')
      if !hasPrefix rest c!"/" && scheme ≠ [] then some (scheme, [])
      else if !hasPrefix rest c!"/" && viaRequest then none
      else if !hasPrefix rest c!"/" && (rest.takeWhile (· ≠ '/')).contains ':' then none
      else if (scheme ≠ [] || (!viaRequest && !hasPrefix rest c!"///")) && hasPrefix rest c!"//" then
        match parseAuthority ((rest.drop 2).takeWhile (· ≠ '/')) with
        | none => none
        | some host => if unescapeOk .other ((rest.drop 2).dropWhile (· ≠ '/')) then some (scheme, host) else none
      else if unescapeOk .other rest then some (scheme, [])
      else none

/-- `isValidURL`, utils.go:224-236. -/
def isValidURL (toTest : Str) : Bool :=
  match urlParse true toTest with
  | none => false
  | some _ =>
    match urlParse false (toTest.takeWhile (· ≠ '#')) with
    | none => false
    | some (scheme, host) =>
      if !unescapeOk .other ((toTest.dropWhile (· ≠ '#')).drop 1) then false
      else if scheme = [] || host = [] then false
      else true

end Xgen

import Verif.CStr
import Verif.OptStore
/-
Model of FeedItemInfo::ParseSeasonEpisode (/repo/daemon/feed/FeedInfo.cpp:139-163): season and episode of an item are taken from its title if the feed
doesn't give them. The regular expression
  [^[:alnum:]]s?([0-9]+)[ex]([0-9]+(-?e[0-9]+)?)[^[:alnum:]]
is matched without regard to case (regexec of POSIX: the first position, there the longest match). It is modelled as a function of its own for the locale C:
everything but the optional end of the second group is determined by the next character.
-/
namespace Verif.FeedSeason
open CStr

def letter (c : UInt8) : Bool := (65 ≤ c.toNat && c.toNat ≤ 90) || (97 ≤ c.toNat && c.toNat ≤ 122)

/-- [:alnum:] -/
def alnum (c : UInt8) : Bool := isDigit c || letter c

/-- The text begins with a character of [^[:alnum:]]. -/
def ends : Bytes → Bool
  | [] => false
  | c :: _ => !alnum c

/-- `(-?e[0-9]+)?[^[:alnum:]]` (FeedInfo.cpp:143); the text of the group, the longer match is preferred. -/
def tailOf (r : Bytes) : Option Bytes :=
  let short := if ends r then some [] else none
  let p : Bytes × Bytes := match r with
    | 45 :: q => ([45], q)
    | _ => ([], r)
  match p.2 with
  | [] => short
  | c :: q =>
    if (c = 101 || c = 69) && (q.takeWhile isDigit != []) && ends (q.dropWhile isDigit) then some (p.1 ++ c :: q.takeWhile isDigit) else short

/-- `s?` -/
def skipS : Bytes → Bytes
  | c :: r => if c = 115 || c = 83 then r else c :: r
  | [] => []

/-- A match at the beginning of the text: the text from the first group on, and the text of the second group. -/
def matchHere : Bytes → Option (Bytes × Bytes)
  | [] => none
  | b :: t =>
    if alnum b then none
    else if (skipS t).takeWhile isDigit = [] then none
    else match (skipS t).dropWhile isDigit with
      | [] => none
      | c :: v =>
        if c = 101 || c = 69 || c = 120 || c = 88 then
          if v.takeWhile isDigit = [] then none
          else (tailOf (v.dropWhile isDigit)).map (fun e => (skipS t, v.takeWhile isDigit ++ e))
        else none

/-- RegEx::Match (/repo/daemon/util/Util.cpp:1517-1524): the first position. -/
def firstMatch : Bytes → Option (Bytes × Bytes)
  | [] => none
  | b :: t => match matchHere (b :: t) with
    | some r => some r
    | none => firstMatch t

/-- `%02d` -/
def fmt02 (i : Int) : Bytes := if 0 ≤ i ∧ i < 10 then 48 :: decInt i else decInt i

def upper (c : UInt8) : UInt8 := if 97 ≤ c.toNat ∧ c.toNat ≤ 122 then UInt8.ofNat (c.toNat - 32) else c

/-- The text of the episode (FeedInfo.cpp:155-161): at most 99 characters, without dashes, in capital letters. -/
def episodeText (g : Bytes) : Bytes := (((69 :: g.take 99).take 99).filter (fun c => c != 45)).map upper

/-- ParseSeasonEpisode (FeedInfo.cpp:139-163): season and episode, `some none`: they stay unknown. Without a title a null pointer is given to regexec. -/
def seasonEpisode : Option Bytes → Option (Option (Bytes × Bytes))
  | none => none
  | some title => some ((firstMatch title).map (fun m => (83 :: fmt02 (OptStore.intOf m.1), episodeText m.2)))

end Verif.FeedSeason

import Verif.Text.Bip39
import Verif.Text.Words
import Verif.Text.WordsJapanese

/-
Checking seed phrases in both languages, schema/bip_39.cpp 25-42 and 103-141.  A text is here what it
is in the code, a string of bytes in UTF-8, because the words are told apart byte by byte.
-/

namespace Verif.Text

open Verif

/-- `language`, schema/bip_39.hpp 18-21. -/
inductive Language where
  | english
  | japanese
deriving DecidableEq

/-- A text in UTF-8. -/
def utf8 (s : List Char) : Bytes := s.flatMap String.utf8EncodeChar

/-- The bytes of a word, which are UTF-8 too. -/
def wordBytes (s : String) : Bytes := s.toByteArray.data.toList

/-- `getWordList`, schema/bip_39.cpp 25-34. -/
def Language.words : Language → List Bytes
  | .english => englishWords.map wordBytes
  | .japanese => japaneseWords.map wordBytes

/-- `getLangSplit`, schema/bip_39.cpp 36-42. -/
def Language.split : Language → Bytes
  | .english => utf8 [' ']
  | .japanese => utf8 ['　']

/-- `boost::split (…, boost::is_any_of (s))`, schema/bip_39.cpp 105: cut at every byte that is one of the bytes of `s`. -/
def splitAny (s text : Bytes) : List Bytes := text.splitOnP fun b => s.contains b

/-- schema/bip_39.cpp 109-119: the index of a word, the last if there are several. -/
def lookupBytes (words : List Bytes) (w : Bytes) : Option Nat :=
  ((List.range words.length).filter fun j => words[j]? == some w).getLast?

/-- `valid`, schema/bip_39.cpp 103-141.  Nothing stands for undefined behaviour, as in `phraseValid`. -/
def Language.valid (l : Language) (sha : Bytes → Bytes) (text : Bytes) : Option Bool :=
  match (splitAny l.split text).mapM (lookupBytes l.words) with
  | none => some false
  | some idx =>
    let arr := pack idx
    let n := (arr.length - 1) * 8 / 32
    if n > 8 then none
    else some (checkByte sha n arr.dropLast == arr.getLastD 0)

end Verif.Text

import Verif.Model.Bytes
/-
Amazon resource names and KMS key identifiers: aws-encryption-sdk-cpp/source/cpputils.cpp:123-368.

`Aws::Utils::ARN` and `Aws::Utils::StringUtils::Split` belong to the AWS SDK for C++; they are modelled after their documentation.
-/
namespace Verif

/-- The parts before and after the first byte `c`. -/
def cutAt (c : UInt8) : Bytes → Option (Bytes × Bytes)
  | [] => none
  | b :: bs =>
    if b = c then some ([], bs)
    else match cutAt c bs with
      | none => none
      | some (x, y) => some (b :: x, y)

def colon : UInt8 := 58
def slash : UInt8 := 47

/-- `Aws::Utils::ARN`: the parts of a resource name. -/
structure Arn where
  partition : Bytes
  service : Bytes
  region : Bytes
  account : Bytes
  resource : Bytes
deriving DecidableEq, Repr

/-- The constructor of `Aws::Utils::ARN` (AWS SDK for C++): the string is split at its first five colons; fewer colons, or a first part
other than "arn", give an object that converts to false, here `none`. -/
def arnParse (s : Bytes) : Option Arn :=
  match cutAt colon s with
  | none => none
  | some (a, s1) =>
    match cutAt colon s1 with
    | none => none
    | some (p, s2) =>
      match cutAt colon s2 with
      | none => none
      | some (v, s3) =>
        match cutAt colon s3 with
        | none => none
        | some (r, s4) =>
          match cutAt colon s4 with
          | none => none
          | some (acct, res) => if a = ascii "arn" then some ⟨p, v, r, acct, res⟩ else none

/-- `parse_region_from_kms_key_arn`, aws-encryption-sdk-cpp/source/cpputils.cpp:123-156; the empty string if there is none. -/
def parseRegion (s : Bytes) : Bytes :=
  match cutAt colon s with
  | none => []
  | some (a, s1) =>
    if a ≠ ascii "arn" then []
    else match cutAt colon s1 with
      | none => []
      | some (_, s2) =>
        match cutAt colon s2 with
        | none => []
        | some (v, s3) =>
          if v ≠ ascii "kms" then []
          else match cutAt colon s3 with
            | none => []
            | some (r, _) => r

/-- `split_arn_resource`, aws-encryption-sdk-cpp/source/cpputils.cpp:163-169.  `StringUtils::Split(resource, '/', 2)` skips empty parts:
leading slashes are dropped, and so are further slashes after the one that ends the first part. -/
def splitResource (r : Bytes) : Option (Bytes × Bytes) :=
  match cutAt slash (r.dropWhile (· = slash)) with
  | none => none
  | some (t, rest) => if rest.dropWhile (· = slash) = [] then none else some (t, rest.dropWhile (· = slash))

/-- `starts_with`, aws-encryption-sdk-cpp/source/cpputils.cpp:175-177. -/
def startsWith (s t : Bytes) : Bool := t.length ≤ s.length ∧ s.take t.length = t

/-- `is_valid_kms_key_arn`, aws-encryption-sdk-cpp/source/cpputils.cpp:179-211. -/
def isValidKeyArn (a : Option Arn) : Bool :=
  match a with
  | none => false
  | some a =>
    if a.partition.length > 0 ∧ a.service = ascii "kms" ∧ a.region.length > 0 ∧ a.account.length > 0 ∧ a.resource.length > 0 then
      match splitResource a.resource with
      | none => false
      | some (t, id) => (t = ascii "alias" ∨ t = ascii "key") ∧ id.length > 0
    else false

/-- `is_valid_kms_identifier`, aws-encryption-sdk-cpp/source/cpputils.cpp:213-232. -/
def isValidIdentifier (s : Bytes) : Bool :=
  if isValidKeyArn (arnParse s) then true
  else if colon ∈ s then false
  else if slash ∈ s then startsWith s (ascii "alias/")
  else true

/-- `is_kms_mrk_arn`, aws-encryption-sdk-cpp/source/cpputils.cpp:236-260. -/
def isMrkArn (a : Option Arn) : Bool :=
  if !isValidKeyArn a then false
  else match a with
    | none => false
    | some a =>
      match splitResource a.resource with
      | none => false
      | some (t, id) => if t = ascii "alias" then false else if t = ascii "key" then startsWith id (ascii "mrk-") else false

/-- `is_kms_mrk_identifier`, aws-encryption-sdk-cpp/source/cpputils.cpp:264-297. -/
def isMrkIdentifier (s : Bytes) : Bool :=
  if startsWith s (ascii "arn:") then isMrkArn (arnParse s)
  else if startsWith s (ascii "alias/") then false
  else if startsWith s (ascii "mrk-") then true
  else false

/-- `kms_mrk_match_for_decrypt`, aws-encryption-sdk-cpp/source/cpputils.cpp:301-323. -/
def mrkMatch (s t : Bytes) : Bool :=
  if s = t then true
  else if !isMrkIdentifier s ∨ !isMrkIdentifier t then false
  else match arnParse s, arnParse t with
    | some a, some b => a.partition = b.partition ∧ a.service = b.service ∧ a.account = b.account ∧ a.resource = b.resource
    | _, _ => false

/-- `map[key].push_back(id)`. -/
def pushAt (key id : Bytes) : List (Bytes × List Bytes) → List (Bytes × List Bytes)
  | [] => [(key, [id])]
  | (k, ids) :: m => if k = key then (k, ids ++ [id]) :: m else (k, ids) :: pushAt key id m

/-- The key under which an identifier is entered, aws-encryption-sdk-cpp/source/cpputils.cpp:330-336. -/
def mrkResourceId (s : Bytes) : Option Bytes :=
  if isMrkArn (arnParse s) then
    match arnParse s with
    | none => none
    | some a =>
      match splitResource a.resource with
      | none => none
      | some (_, id) => some id
  else if isMrkIdentifier s then some s
  else none

/-- The loop of aws-encryption-sdk-cpp/source/cpputils.cpp:328-337. -/
def mrkMap (ids : List Bytes) (m : List (Bytes × List Bytes)) : List (Bytes × List Bytes) :=
  match ids with
  | [] => m
  | s :: ids =>
    match mrkResourceId s with
    | none => mrkMap ids m
    | some k => mrkMap ids (pushAt k s m)

/-- `find_duplicate_kms_mrk_ids`, aws-encryption-sdk-cpp/source/cpputils.cpp:327-368; the real map is ordered by key, so that the result
may be in another order. -/
def findDuplicateMrks (ids : List Bytes) : List Bytes :=
  ((mrkMap ids []).filter (fun kv => ¬ kv.2.length < 2)).flatMap (fun kv => kv.2)

end Verif

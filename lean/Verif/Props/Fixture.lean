import Verif.Spec.Example

/-! # The fixture of the repository

The model applied to the tokens of /repo/test/xsd/base64.xsd gives exactly the expected outputs stored beside it, for C, Java, Rust
and TypeScript; for Go it gives the expected output up to white space, because go/format is not modelled.  These are
checks of the model, not properties. -/

namespace Xgen.Fixture
open Ex

/-- The tokens of /repo/test/xsd/base64.xsd. -/
def document : List Token := [
    on "schema" [("xmlns", "http://www.w3.org/2001/XMLSchema"), ("xmlns:here", "http://example.org/"), ("targetNamespace", "http://example.org/")],
    txt "\n  ", on "simpleType" [("name", "myType1")], txt "\n    ", on "restriction" [("base", "base64Binary")],
    txt "\n      ", on "length" [("value", "10")], off "length", txt "\n    ", off "restriction", txt "\n  ",
    off "simpleType", txt "\n\n  ", on "complexType" [("name", "myType2")], txt "\n    ", on "simpleContent",
    txt "\n      ", on "extension" [("base", "base64Binary")], txt "\n        ",
    on "attribute" [("name", "length"), ("type", "int")], off "attribute", txt "\n      ", off "extension",
    txt "\n    ", off "simpleContent", txt "\n  ", off "complexType", txt "\n\n  ",
    on "complexType" [("name", "myType3")], txt "\n    ", on "simpleContent", txt "\n      ",
    on "extension" [("base", "date")], txt "\n        ", on "attribute" [("name", "length"), ("type", "int")],
    off "attribute", txt "\n      ", off "extension", txt "\n    ", off "simpleContent", txt "\n  ",
    off "complexType", txt "\n\n  ", on "complexType" [("name", "myType4")], txt "\n    ", on "sequence",
    txt "\n      ", on "element" [("name", "title"), ("type", "string")], off "element", txt "\n      ",
    on "element" [("name", "blob"), ("type", "base64Binary")], off "element", txt "\n      ",
    on "element" [("name", "timestamp"), ("type", "dateTime")], off "element", txt "\n    ", off "sequence",
    txt "\n  ", off "complexType", txt "\n\n  ", on "simpleType" [("name", "myType5")], txt "\n    ",
    on "restriction" [("base", "gDay")], off "restriction", txt "\n  ", off "simpleType", txt "\n\n  ",
    on "complexType" [("name", "MyType6")], txt "\n    ", on "attribute" [("name", "code")], txt "\n      ",
    on "simpleType", txt "\n        ", on "restriction" [("base", "string")], txt "\n          ",
    on "enumeration" [("value", "value1")], off "enumeration", txt "\n          ",
    on "enumeration" [("value", "value2")], off "enumeration", txt "\n        ", off "restriction", txt "\n      ",
    off "simpleType", txt "\n    ", off "attribute", txt "\n    ",
    on "attribute" [("name", "identifier"), ("type", "int")], off "attribute", txt "\n  ", off "complexType",
    txt "\n\n  ", on "complexType" [("name", "MyType7")], txt "\n    ", on "simpleContent", txt "\n      ",
    on "extension" [("base", "string")], txt "\n        ",
    on "attribute" [("type", "string"), ("name", "origin"), ("use", "required")], off "attribute", txt "\n      ",
    off "extension", txt "\n    ", off "simpleContent", txt "\n  ", off "complexType", txt "\n\n  ",
    on "element" [("name", "TopLevel")], txt "\n    ", on "complexType", txt "\n      ", on "complexContent",
    txt "\n        ", on "extension" [("base", "here:MyType6")], txt "\n          ", on "sequence",
    txt "\n            ",
    on "element" [("name", "nested"), ("type", "here:MyType7"), ("minOccurs", "0"), ("maxOccurs", "1")],
    off "element", txt "\n            ", on "choice" [("minOccurs", "0"), ("maxOccurs", "unbounded")],
    txt "\n              ", on "element" [("name", "myType1"), ("type", "here:myType1")], off "element",
    txt "\n              ", on "element" [("name", "myType2"), ("type", "here:myType2")], off "element",
    txt "\n            ", off "choice", txt "\n          ", off "sequence", txt "\n          ",
    on "attribute" [("name", "cost"), ("type", "double")], off "attribute", txt "\n          ",
    on "attribute" [("name", "LastUpdated"), ("type", "dateTime")], off "attribute", txt "\n        ",
    off "extension", txt "\n      ", off "complexContent", txt "\n    ", off "complexType", txt "\n  ",
    off "element", txt "\n", off "schema"]

/-- A file system with this one schema. -/
def files : World := world [("xsd/base64.xsd", document)] [".", "xsd"]

/-- What is written for a language (parser_test.go:48-66 runs the parser this way). -/
def written (lang : Str) : List (Str × Str) :=
  match @Parse asciiUni files
      { filePath := c!"xsd/base64.xsd", inputDir := c!"xsd", outputDir := c!"out", lang := lang } {} with
  | .ok _ sh => sh.outputs
  | _ => []

/-- A text without white space. -/
def solid (s : Str) : Str := s.filter (fun c => !(c == ' ' || c == '\t' || c == '\n' || c == '\r'))

/-- The content of /repo/test/c/base64.xsd.h. -/
def expectedC : Str :=
  c!"// Code generated by xgen. DO NOT EDIT.\n" ++
  c!"\r\n" ++
  c!"// MyType1 ...\r\n" ++
  c!"typedef char MyType1[];\n" ++
  c!"\r\n" ++
  c!"// MyType2 ...\r\n" ++
  c!"typedef struct {\n" ++
  c!"\tint LengthAttr; // attr, optional\n" ++
  c!"} MyType2;\n" ++
  c!"\r\n" ++
  c!"// MyType3 ...\r\n" ++
  c!"typedef struct {\n" ++
  c!"\tint LengthAttr; // attr, optional\n" ++
  c!"} MyType3;\n" ++
  c!"\r\n" ++
  c!"// MyType4 ...\r\n" ++
  c!"typedef struct {\n" ++
  c!"\tchar Title;\n" ++
  c!"\tchar Blob[];\n" ++
  c!"\tchar Timestamp;\n" ++
  c!"} MyType4;\n" ++
  c!"\r\n" ++
  c!"// MyType5 ...\r\n" ++
  c!"typedef char MyType5;\n" ++
  c!"\r\n" ++
  c!"// MyType6 ...\r\n" ++
  c!"typedef struct {\n" ++
  c!"\tchar CodeAttr; // attr, optional\n" ++
  c!"\tint IdentifierAttr; // attr, optional\n" ++
  c!"} MyType6;\n" ++
  c!"\r\n" ++
  c!"// MyType7 ...\r\n" ++
  c!"typedef struct {\n" ++
  c!"\tchar OriginAttr; // attr\n" ++
  c!"} MyType7;\n" ++
  c!"\r\n" ++
  c!"// TopLevel ...\r\n" ++
  c!"typedef struct {\n" ++
  c!"\tfloat CostAttr; // attr, optional\n" ++
  c!"\tchar LastUpdatedAttr; // attr, optional\n" ++
  c!"\tMyType7 Nested;\n" ++
  c!"\tchar MyType1[];\n" ++
  c!"\tMyType2 MyType2[];\n" ++
  c!"} TopLevel;\n"

/-- The content of /repo/test/java/base64.xsd.java. -/
def expectedJava : Str :=
  c!"// Code generated by xgen. DO NOT EDIT.\n" ++
  c!"\n" ++
  c!"package schema;\n" ++
  c!"\n" ++
  c!"import java.util.ArrayList;\n" ++
  c!"import java.util.List;\n" ++
  c!"import javax.xml.bind.annotation.XmlAccessType;\n" ++
  c!"import javax.xml.bind.annotation.XmlAccessorType;\n" ++
  c!"import javax.xml.bind.annotation.XmlAttribute;\n" ++
  c!"import javax.xml.bind.annotation.XmlElement;\n" ++
  c!"import javax.xml.bind.annotation.XmlSchemaType;\n" ++
  c!"import javax.xml.bind.annotation.XmlType;\n" ++
  c!"import javax.xml.bind.annotation.XmlValue;\n" ++
  c!"\r\n" ++
  c!"// MyType1 ...\r\n" ++
  c!"@XmlAccessorType(XmlAccessType.FIELD)\n" ++
  c!"@XmlAttribute(required = true, name = \"myType1\")\n" ++
  c!"public class MyType1 {\n" ++
  c!"\tprotected List<Byte> MyType1;\n" ++
  c!"}\n" ++
  c!"\r\n" ++
  c!"// MyType2 ...\r\n" ++
  c!"public class MyType2 {\n" ++
  c!"\t@XmlAttribute(name = \"length\")\n" ++
  c!"\tprotected Integer LengthAttr;\n" ++
  c!"\t@XmlValue\n" ++
  c!"\tprotected List<Byte> value;\n" ++
  c!"}\n" ++
  c!"\r\n" ++
  c!"// MyType3 ...\r\n" ++
  c!"public class MyType3 {\n" ++
  c!"\t@XmlAttribute(name = \"length\")\n" ++
  c!"\tprotected Integer LengthAttr;\n" ++
  c!"\t@XmlValue\n" ++
  c!"\tprotected String value;\n" ++
  c!"}\n" ++
  c!"\r\n" ++
  c!"// MyType4 ...\r\n" ++
  c!"public class MyType4 {\n" ++
  c!"\t@XmlElement(required = true, name = \"title\")\n" ++
  c!"\tprotected String Title;\n" ++
  c!"\t@XmlElement(required = true, name = \"blob\")\n" ++
  c!"\tprotected List<Byte> Blob;\n" ++
  c!"\t@XmlElement(required = true, name = \"timestamp\")\n" ++
  c!"\tprotected String Timestamp;\n" ++
  c!"}\n" ++
  c!"\r\n" ++
  c!"// MyType5 ...\r\n" ++
  c!"@XmlAccessorType(XmlAccessType.FIELD)\n" ++
  c!"@XmlAttribute(required = true, name = \"myType5\")\n" ++
  c!"public class MyType5 {\n" ++
  c!"\tprotected String MyType5;\n" ++
  c!"}\n" ++
  c!"\r\n" ++
  c!"// MyType6 ...\r\n" ++
  c!"public class MyType6 {\n" ++
  c!"\t@XmlAttribute(name = \"code\")\n" ++
  c!"\tprotected String CodeAttr;\n" ++
  c!"\t@XmlAttribute(name = \"identifier\")\n" ++
  c!"\tprotected Integer IdentifierAttr;\n" ++
  c!"}\n" ++
  c!"\r\n" ++
  c!"// MyType7 ...\r\n" ++
  c!"public class MyType7 {\n" ++
  c!"\t@XmlAttribute(name = \"origin\", required = true)\n" ++
  c!"\tprotected String OriginAttr;\n" ++
  c!"\t@XmlValue\n" ++
  c!"\tprotected String value;\n" ++
  c!"}\n" ++
  c!"\r\n" ++
  c!"// TopLevel ...\r\n" ++
  c!"public class TopLevel extends MyType6  {\n" ++
  c!"\t@XmlAttribute(name = \"cost\")\n" ++
  c!"\tprotected Float CostAttr;\n" ++
  c!"\t@XmlAttribute(name = \"LastUpdated\")\n" ++
  c!"\tprotected String LastUpdatedAttr;\n" ++
  c!"\t@XmlElement(required = true, name = \"nested\")\n" ++
  c!"\tprotected MyType7 Nested;\n" ++
  c!"\t@XmlElement(required = true, name = \"myType1\")\n" ++
  c!"\tprotected List<List<Byte>> MyType1;\n" ++
  c!"\t@XmlElement(required = true, name = \"myType2\")\n" ++
  c!"\tprotected List<MyType2> MyType2;\n" ++
  c!"}\n"

/-- The content of /repo/test/rs/base64.xsd.rs. -/
def expectedRust : Str :=
  c!"// Code generated by xgen. DO NOT EDIT.\n" ++
  c!"\n" ++
  c!"#[macro_use]\n" ++
  c!"extern crate serde_derive;\n" ++
  c!"extern crate serde;\n" ++
  c!"extern crate serde_xml_rs;\n" ++
  c!"\n" ++
  c!"use serde_xml_rs::from_reader;\n" ++
  c!"\n" ++
  c!"\r\n" ++
  c!"// MyType1 ...\r\n" ++
  c!"#[derive(Debug, Deserialize, Serialize, PartialEq)]\n" ++
  c!"pub struct MyType1 {\n" ++
  c!"\t#[serde(rename = \"myType1\")]\n" ++
  c!"\tpub my_type1: String,\n" ++
  c!"}\n" ++
  c!"\n" ++
  c!"\r\n" ++
  c!"// MyType2 ...\r\n" ++
  c!"#[derive(Debug, Deserialize, Serialize, PartialEq)]\n" ++
  c!"pub struct MyType2 {\n" ++
  c!"\t#[serde(rename = \"length\")]\n" ++
  c!"\tpub length: Option<i32>,\n" ++
  c!"\t#[serde(rename = \"$value\")]\n" ++
  c!"\tpub value: String,\n" ++
  c!"}\n" ++
  c!"\n" ++
  c!"\r\n" ++
  c!"// MyType3 ...\r\n" ++
  c!"#[derive(Debug, Deserialize, Serialize, PartialEq)]\n" ++
  c!"pub struct MyType3 {\n" ++
  c!"\t#[serde(rename = \"length\")]\n" ++
  c!"\tpub length: Option<i32>,\n" ++
  c!"\t#[serde(rename = \"$value\")]\n" ++
  c!"\tpub value: u8,\n" ++
  c!"}\n" ++
  c!"\n" ++
  c!"\r\n" ++
  c!"// MyType4 ...\r\n" ++
  c!"#[derive(Debug, Deserialize, Serialize, PartialEq)]\n" ++
  c!"pub struct MyType4 {\n" ++
  c!"\t#[serde(rename = \"title\")]\n" ++
  c!"\tpub title: String,\n" ++
  c!"\t#[serde(rename = \"blob\")]\n" ++
  c!"\tpub blob: String,\n" ++
  c!"\t#[serde(rename = \"timestamp\")]\n" ++
  c!"\tpub timestamp: u8,\n" ++
  c!"}\n" ++
  c!"\n" ++
  c!"\r\n" ++
  c!"// MyType5 ...\r\n" ++
  c!"#[derive(Debug, Deserialize, Serialize, PartialEq)]\n" ++
  c!"pub struct MyType5 {\n" ++
  c!"\t#[serde(rename = \"myType5\")]\n" ++
  c!"\tpub my_type5: String,\n" ++
  c!"}\n" ++
  c!"\n" ++
  c!"\r\n" ++
  c!"// MyType6 ...\r\n" ++
  c!"#[derive(Debug, Deserialize, Serialize, PartialEq)]\n" ++
  c!"pub struct MyType6 {\n" ++
  c!"\t#[serde(rename = \"code\")]\n" ++
  c!"\tpub code: Option<String>,\n" ++
  c!"\t#[serde(rename = \"identifier\")]\n" ++
  c!"\tpub identifier: Option<i32>,\n" ++
  c!"}\n" ++
  c!"\n" ++
  c!"\r\n" ++
  c!"// MyType7 ...\r\n" ++
  c!"#[derive(Debug, Deserialize, Serialize, PartialEq)]\n" ++
  c!"pub struct MyType7 {\n" ++
  c!"\t#[serde(rename = \"origin\")]\n" ++
  c!"\tpub origin: String,\n" ++
  c!"\t#[serde(rename = \"$value\")]\n" ++
  c!"\tpub value: String,\n" ++
  c!"}\n" ++
  c!"\n" ++
  c!"\r\n" ++
  c!"// TopLevel ...\r\n" ++
  c!"#[derive(Debug, Deserialize, Serialize, PartialEq)]\n" ++
  c!"pub struct TopLevel {\n" ++
  c!"\t#[serde(rename = \"cost\")]\n" ++
  c!"\tpub cost: Option<f64>,\n" ++
  c!"\t#[serde(rename = \"LastUpdated\")]\n" ++
  c!"\tpub last_updated: Option<u8>,\n" ++
  c!"\t#[serde(rename = \"nested\")]\n" ++
  c!"\tpub nested: MyType7,\n" ++
  c!"\t#[serde(rename = \"myType1\")]\n" ++
  c!"\tpub my_type1: Vec<String>,\n" ++
  c!"\t#[serde(rename = \"myType2\")]\n" ++
  c!"\tpub my_type2: Vec<MyType2>,\n" ++
  c!"\t#[serde(flatten)]\n" ++
  c!"\tpub my_type6: MyType6,\n" ++
  c!"}\n"

/-- The content of /repo/test/ts/base64.xsd.ts. -/
def expectedTS : Str :=
  c!"// Code generated by xgen. DO NOT EDIT.\n" ++
  c!"\r\n" ++
  c!"// MyType1 ...\r\n" ++
  c!"export type MyType1 = Uint8Array;\n" ++
  c!"\r\n" ++
  c!"// MyType2 ...\r\n" ++
  c!"export class MyType2 {\n" ++
  c!"\tLengthAttr: number | null;\n" ++
  c!"\tValue: Uint8Array;\n" ++
  c!"}\n" ++
  c!"\r\n" ++
  c!"// MyType3 ...\r\n" ++
  c!"export class MyType3 {\n" ++
  c!"\tLengthAttr: number | null;\n" ++
  c!"\tValue: string;\n" ++
  c!"}\n" ++
  c!"\r\n" ++
  c!"// MyType4 ...\r\n" ++
  c!"export class MyType4 {\n" ++
  c!"\tTitle: string;\n" ++
  c!"\tBlob: Uint8Array;\n" ++
  c!"\tTimestamp: string;\n" ++
  c!"}\n" ++
  c!"\r\n" ++
  c!"// MyType5 ...\r\n" ++
  c!"export type MyType5 = string;\n" ++
  c!"\r\n" ++
  c!"// MyType6 ...\r\n" ++
  c!"export class MyType6 {\n" ++
  c!"\tCodeAttr: string | null;\n" ++
  c!"\tIdentifierAttr: number | null;\n" ++
  c!"}\n" ++
  c!"\r\n" ++
  c!"// MyType7 ...\r\n" ++
  c!"export class MyType7 {\n" ++
  c!"\tOriginAttr: string;\n" ++
  c!"\tValue: string;\n" ++
  c!"}\n" ++
  c!"\r\n" ++
  c!"// TopLevel ...\r\n" ++
  c!"export class TopLevel extends MyType6  {\n" ++
  c!"\tCostAttr: number | null;\n" ++
  c!"\tLastUpdatedAttr: string | null;\n" ++
  c!"\tNested: MyType7;\n" ++
  c!"\tMyType1: Uint8Array;\n" ++
  c!"\tMyType2: Array<MyType2>;\n" ++
  c!"}\n"

/-- The content of /repo/test/go/base64.xsd.go. -/
def expectedGo : Str :=
  c!"// Code generated by xgen. DO NOT EDIT.\n" ++
  c!"\n" ++
  c!"package schema\n" ++
  c!"\n" ++
  c!"import (\n" ++
  c!"\t\"encoding/xml\"\n" ++
  c!")\n" ++
  c!"\n" ++
  c!"// MyType1 ...\n" ++
  c!"type MyType1 string\n" ++
  c!"\n" ++
  c!"// MyType2 ...\n" ++
  c!"type MyType2 struct {\n" ++
  c!"\tXMLName    xml.Name `xml:\"myType2\"`\n" ++
  c!"\tLengthAttr int      `xml:\"length,attr,omitempty\"`\n" ++
  c!"\tValue      string   `xml:\",chardata\"`\n" ++
  c!"}\n" ++
  c!"\n" ++
  c!"// MyType3 ...\n" ++
  c!"type MyType3 struct {\n" ++
  c!"\tXMLName    xml.Name `xml:\"myType3\"`\n" ++
  c!"\tLengthAttr int      `xml:\"length,attr,omitempty\"`\n" ++
  c!"\tValue      string   `xml:\",chardata\"`\n" ++
  c!"}\n" ++
  c!"\n" ++
  c!"// MyType4 ...\n" ++
  c!"type MyType4 struct {\n" ++
  c!"\tXMLName   xml.Name `xml:\"myType4\"`\n" ++
  c!"\tTitle     string   `xml:\"title\"`\n" ++
  c!"\tBlob      string   `xml:\"blob\"`\n" ++
  c!"\tTimestamp string   `xml:\"timestamp\"`\n" ++
  c!"}\n" ++
  c!"\n" ++
  c!"// MyType5 ...\n" ++
  c!"type MyType5 string\n" ++
  c!"\n" ++
  c!"// MyType6 ...\n" ++
  c!"type MyType6 struct {\n" ++
  c!"\tCodeAttr       string `xml:\"code,attr,omitempty\"`\n" ++
  c!"\tIdentifierAttr int    `xml:\"identifier,attr,omitempty\"`\n" ++
  c!"}\n" ++
  c!"\n" ++
  c!"// MyType7 ...\n" ++
  c!"type MyType7 struct {\n" ++
  c!"\tOriginAttr string `xml:\"origin,attr\"`\n" ++
  c!"\tValue      string `xml:\",chardata\"`\n" ++
  c!"}\n" ++
  c!"\n" ++
  c!"// TopLevel ...\n" ++
  c!"type TopLevel struct {\n" ++
  c!"\tCostAttr        float64    `xml:\"cost,attr,omitempty\"`\n" ++
  c!"\tLastUpdatedAttr string     `xml:\"LastUpdated,attr,omitempty\"`\n" ++
  c!"\tNested          *MyType7   `xml:\"nested\"`\n" ++
  c!"\tMyType1         []string   `xml:\"myType1\"`\n" ++
  c!"\tMyType2         []*MyType2 `xml:\"myType2\"`\n" ++
  c!"\t*MyType6\n" ++
  c!"}\n"

example : written c!"C" = [(c!"out/base64.xsd.h", expectedC)] := by decide +kernel
example : written c!"Java" = [(c!"out/base64.xsd.java", expectedJava)] := by decide +kernel
example : written c!"Rust" = [(c!"out/base64.xsd.rs", expectedRust)] := by decide +kernel
example : written c!"TypeScript" = [(c!"out/base64.xsd.ts", expectedTS)] := by decide +kernel
example : (written c!"Go").map (fun f => (f.1, solid f.2)) = [(c!"out/base64.xsd.go", solid expectedGo)] := by
  decide +kernel

end Xgen.Fixture

import Verif.Spec.Loops
/-!
# What the operator symbols stand for

The methods of the operators by their symbols, with the kind of operands that the method itself gets. Taken from the
lists of operators in the documentation and written independently of the operator table of the model. Not listed are
the operators with effects, the ones that call functions or use regexes or random numbers, and the ones on lvalues;
these have their own statements.
-/

namespace Pip

/-- Which values the method of an operator gets as operands -/
inductive Takes where
  /-- all values -/
  | any
  /-- all values except functions -/
  | whole
  /-- also no Lists: the operator is applied to their items -/
  | items1
  /-- also no Ranges: the operator is applied to their numbers -/
  | items2

def Takes.ok : Takes → Val → Bool
  | .any, _ => true
  | .whole, v => !v.isBlock
  | .items1, v => !v.isBlock && !v.isList
  | .items2, v => !v.isBlock && !v.isList && !v.isRange

/-- Are Lists taken apart? -/
def Takes.lists : Takes → Bool
  | .items1 | .items2 => true
  | _ => false
/-- Are Ranges taken apart? -/
def Takes.ranges : Takes → Bool
  | .items2 => true
  | _ => false

/-- A method that always gives a value -/
def val (r : Except Exc Val) : Except Exc (Option Val) :=
  match r with
  | .ok v => .ok (some v)
  | .error e => .error e

/-- The result of a method as the result of an expression (Python's `None` is no value) -/
def resOf : Except Exc (Option Val) → Except Exc Res
  | .ok (some v) => .ok (.v v)
  | .ok none => .ok .none
  | .error e => .error e

/-- The operators with one operand that compute their result from the values of the operands -/
def unarySyms (X : Ext) : List (Str × Takes × (Val → Except Exc (Option Val))) := [
  (s% "!", .any, fun a => val (opNOT a)),
  (s% "\\!", .whole, fun a => val (opNOT a)),
  (s% "RP", .any, fun a => val (opREPR a)),
  (s% "ST", .any, fun a => val (opSTR X a)),
  (s% "MX", .whole, fun a => val (opMAX X a)),
  (s% "M", .whole, fun a => val (opMAX X a)),
  (s% "MN", .whole, fun a => val (opMIN X a)),
  (s% "N", .whole, fun a => val (opMIN X a)),
  (s% "SN", .whole, fun a => val (opSORTNUM X a)),
  (s% "SS", .whole, fun a => val (opSORTSTRING X a)),
  (s% "DN", .whole, fun a => val (opDESCENDINGNUM X a)),
  (s% "DS", .whole, fun a => val (opDESCENDINGSTRING X a)),
  (s% "UQ", .whole, fun a => val (opUNIQUE a)),
  (s% "EN", .whole, fun a => val (opENUMERATE a)),
  (s% "PM", .whole, fun a => val (opPERMUTATIONS a)),
  (s% "FL", .whole, fun a => val (opFLATTEN a)),
  (s% "FA", .whole, fun a => val (opFLATTENALL a)),
  (s% "^", .items2, fun a => val (opSPLIT X a none)),
  (s% "<>", .whole, fun a => val (opGROUP X a none)),
  (s% "J", .whole, fun a => val (opJOIN a none)),
  (s% "RV", .whole, fun a => val (opREVERSE a)),
  (s% "R", .whole, fun a => val (opREVERSE a)),
  (s% "RF", .whole, fun a => val (opREFLECT a)),
  (s% "PZ", .whole, fun a => val (opPALINDROMIZE a)),
  (s% "QR", .whole, fun a => val (opQUADREFLECT a)),
  (s% "QP", .whole, fun a => val (opQUADPALINDROMIZE a)),
  (s% "Z", .whole, fun a => val (opZIP a none)),
  (s% "ZD", .whole, fun a => val (opZIPDEFAULT a none)),
  (s% "ZJ", .whole, fun a => val (opZIPJOIN X a none)),
  (s% "WV", .whole, fun a => opWEAVE a none),
  (s% "UW", .whole, fun a => val (opUNWEAVE a none)),
  (s% "CP", .whole, fun a => val (opCARTESIANPRODUCT a none)),
  (s% "CG", .items2, fun a => val (opCOORDINATEGRID a none)),
  (s% "ZG", .items2, fun a => val (opZEROGRID a none)),
  (s% "OG", .items2, fun a => val (opONEGRID a none)),
  (s% "EY", .items2, fun a => val (opIDENTITYMATRIX a)),
  (s% "TD", .whole, fun a => val (opTODIGITS none a)),
  (s% "FD", .whole, fun a => val (opFROMDIGITS X a none)),
  (s% "X", .whole, fun a => val (opREGEX a)),
  (s% ".", .items1, fun a => val (opDOT a)),
  (s% "K", .items1, fun a => val (opKLEENESTAR a)),
  (s% "||", .items1, fun a => val (opSTRIP X a none)),
  (s% "|>", .items1, fun a => val (opLSTRIP X a none)),
  (s% "<|", .items1, fun a => val (opRSTRIP X a none)),
  (s% "TM", .items1, fun a => val (opTRIM a none)),
  (s% "LC", .items1, fun a => val (opLOWERCASE X a)),
  (s% "UC", .items1, fun a => val (opUPPERCASE X a)),
  (s% "SC", .items1, fun a => val (opSWAPCASE X a)),
  (s% "TC", .items1, fun a => val (opTITLECASE X a)),
  (s% "IC", .items1, fun a => val (opINITIALCAPS X a)),
  (s% ",", .items2, fun a => val (opRANGETO a)),
  (s% "\\,", .items2, fun a => val (opINCLRANGETO a)),
  (s% "TB", .items2, fun a => val (opTOBASE a none)),
  (s% "BN", .items2, fun a => val (opBITWISENOT a)),
  (s% "SI", .items2, fun a => val (opSINE X a)),
  (s% "CO", .items2, fun a => val (opCOSINE X a)),
  (s% "TA", .items2, fun a => val (opTANGENT X a)),
  (s% "SE", .items2, fun a => val (opSECANT X a)),
  (s% "CS", .items2, fun a => val (opCOSEC X a)),
  (s% "CT", .items2, fun a => val (opCOTAN X a)),
  (s% "AT", .items2, fun a => val (opARCTAN X a none)),
  (s% "RD", .items2, fun a => val (opRADIANS X a)),
  (s% "DG", .items2, fun a => val (opDEGREES X a)),
  (s% "BL", .items2, fun a => val (opBITLENGTH a)),
  (s% "|<", .items2, fun a => val (opFLOOR X a none)),
  (s% ">|", .items2, fun a => val (opCEIL X a none)),
  (s% "RZ", .items2, fun a => val (opROUNDZERO X a none)),
  (s% "RN", .items2, fun a => val (opROUNDNEAREST X a none)),
  (s% "+", .items1, fun a => val (opPOS X a)),
  (s% "-", .items2, fun a => val (opNEG X a)),
  (s% "/", .items2, fun a => val (opINVERT X a)),
  (s% "%", .items2, fun a => val (opMOD X a none)),
  (s% "HV", .items2, fun a => val (opHALVE X a)),
  (s% "HU", .items2, fun a => val (opHALVEUP X a)),
  (s% "DB", .items2, fun a => val (opDOUBLE X a)),
  (s% "SQ", .items2, fun a => val (opSQUARE X a)),
  (s% "**", .items2, fun a => val (opPOW X a none)),
  (s% "E", .items2, fun a => val (opPOW X a none)),
  (s% "EE", .items2, fun a => val (opPOWEROFTEN X a none)),
  (s% "RT", .items2, fun a => val (opSQRT X a)),
  (s% "EX", .items2, fun a => val (opEXPONENTIAL X a)),
  (s% "LN", .items2, fun a => val (opNATURALLOG X a)),
  (s% "LB", .items2, fun a => val (opBINARYLOG X a)),
  (s% "LD", .items2, fun a => val (opDECIMALLOG X a)),
  (s% "#", .whole, fun a => val (opLEN a)),
  (s% "A", .items2, fun a => val (opASC a)),
  (s% "C", .items2, fun a => val (opCHR a)),
  (s% "AB", .items2, fun a => val (opABS X a)),
  (s% "SG", .items2, fun a => val (opSIGN X a)),
  (s% "FB", .items2, fun a => val (opFROMBASE a none))]

/-- The operators with two operands that compute their result from the values of the operands -/
def binarySyms (X : Ext) : List (Str × Takes × (Val → Val → Except Exc (Option Val))) := [
  (s% "==", .any, fun a b => val (opOBJEQUAL a b)),
  (s% "\\|", .whole, fun a b => val (opRVALOR a b)),
  (s% "\\&", .whole, fun a b => val (opRVALAND a b)),
  (s% "<", .whole, fun a b => val (opNUMLESS X a b)),
  (s% ">", .whole, fun a b => val (opNUMGREATER X a b)),
  (s% "=", .whole, fun a b => val (opNUMEQUAL X a b)),
  (s% "<=", .whole, fun a b => val (opNUMLESSEQ X a b)),
  (s% ">=", .whole, fun a b => val (opNUMGREATEREQ X a b)),
  (s% "!=", .whole, fun a b => val (opNUMNOTEQUAL X a b)),
  (s% "LT", .whole, fun a b => val (opSTRLESS a b)),
  (s% "GT", .whole, fun a b => val (opSTRGREATER a b)),
  (s% "Q", .whole, fun a b => val (opSTREQUAL a b)),
  (s% "LE", .whole, fun a b => val (opSTRLESSEQ a b)),
  (s% "GE", .whole, fun a b => val (opSTRGREATEREQ a b)),
  (s% "NE", .whole, fun a b => val (opSTRNOTEQUAL a b)),
  (s% "#=", .whole, fun a b => val (opLENEQUAL a b)),
  (s% "#<", .whole, fun a b => val (opLENLESS a b)),
  (s% "#>", .whole, fun a b => val (opLENGREATER a b)),
  (s% "NI", .whole, fun a b => val (opNOTIN X a b)),
  (s% "CB", .whole, fun a b => val (opCOMBINATIONS a b)),
  (s% "AE", .whole, fun a b => val (opAPPENDELEM a b)),
  (s% "AL", .whole, fun a b => val (opAPPENDLIST a b)),
  (s% "PE", .whole, fun a b => val (opPREPENDELEM a b)),
  (s% "^", .items2, fun a b => val (opSPLIT X a (some b))),
  (s% "^@", .whole, fun a b => val (opSPLITAT a b)),
  (s% "<>", .whole, fun a b => val (opGROUP X a (some b))),
  (s% "J", .whole, fun a b => val (opJOIN a (some b))),
  (s% "JW", .whole, fun a b => val (opJOINWRAP a b)),
  (s% "RL", .whole, fun a b => val (opREPEATLIST a b)),
  (s% "Z", .whole, fun a b => val (opZIP a (some b))),
  (s% "ZD", .whole, fun a b => val (opZIPDEFAULT a (some b))),
  (s% "ZJ", .whole, fun a b => val (opZIPJOIN X a (some b))),
  (s% "WV", .whole, fun a b => opWEAVE a (some b)),
  (s% "UW", .whole, fun a b => val (opUNWEAVE a (some b))),
  (s% "CP", .whole, fun a b => val (opCARTESIANPRODUCT a (some b))),
  (s% "CG", .items2, fun a b => val (opCOORDINATEGRID a (some b))),
  (s% "ZG", .items2, fun a b => val (opZEROGRID a (some b))),
  (s% "OG", .items2, fun a b => val (opONEGRID a (some b))),
  (s% "TD", .whole, fun a b => val (opTODIGITS (some b) a)),
  (s% "FD", .whole, fun a b => val (opFROMDIGITS X a (some b))),
  (s% "WR", .items2, fun a b => val (opWRAP a b)),
  (s% ".", .items2, fun a b => val (opCAT a b)),
  (s% "RM", .whole, fun a b => val (opREMOVE X a b)),
  (s% "DC", .items2, fun a b => val (opDELETECHARS a b)),
  (s% "X", .items2, fun a b => val (opSTRMUL a b)),
  (s% "||", .items1, fun a b => val (opSTRIP X a (some b))),
  (s% "|>", .items1, fun a b => val (opLSTRIP X a (some b))),
  (s% "<|", .items1, fun a b => val (opRSTRIP X a (some b))),
  (s% "TM", .items1, fun a b => val (opTRIM a (some b))),
  (s% ",", .items2, fun a b => val (opRANGE a b)),
  (s% "\\,", .items2, opINCLRANGE),
  (s% "TB", .items2, fun a b => val (opTOBASE a (some b))),
  (s% "BA", .items2, fun a b => val (opBITWISEAND a b)),
  (s% "BO", .items2, fun a b => val (opBITWISEOR a b)),
  (s% "BX", .items2, fun a b => val (opBITWISEXOR a b)),
  (s% "AT", .items2, fun a b => val (opARCTAN X a (some b))),
  (s% "CM", .whole, fun a b => val (opNUMCMP X a b)),
  (s% "|<", .items2, fun a b => val (opFLOOR X a (some b))),
  (s% ">|", .items2, fun a b => val (opCEIL X a (some b))),
  (s% "RZ", .items2, fun a b => val (opROUNDZERO X a (some b))),
  (s% "RN", .items2, fun a b => val (opROUNDNEAREST X a (some b))),
  (s% "+", .items1, fun a b => val (opADD X a b)),
  (s% "-", .items1, fun a b => val (opSUB X a b)),
  (s% "AD", .items2, fun a b => val (opABSOLUTEDIFF X a b)),
  (s% "*", .items2, fun a b => val (opMUL X a b)),
  (s% "/", .items2, fun a b => val (opDIV X a b)),
  (s% "%", .items2, fun a b => val (opMOD X a (some b))),
  (s% "//", .items2, fun a b => val (opINTDIV X a b)),
  (s% "**", .items2, fun a b => val (opPOW X a (some b))),
  (s% "E", .items2, fun a b => val (opPOW X a (some b))),
  (s% "EE", .items2, fun a b => val (opPOWEROFTEN X a (some b))),
  (s% "RT", .items2, fun a b => val (opROOT X a b)),
  (s% "FB", .items2, fun a b => val (opFROMBASE a (some b)))]

/-- The operators with three operands that compute their result from the values of the operands -/
def ternarySyms (X : Ext) : List (Str × Takes × (Val → Val → Val → Except Exc (Option Val))) := [
  (s% "\\?", .whole, fun a b c => val (opRVALIFTE a b c)),
  (s% "RA", .whole, fun a b c => val (opREPLACEAT X a b c)),
  (s% "TR", .whole, fun a b c => val (opTRANSLITERATE X a b c))]

end Pip

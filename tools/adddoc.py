"""Adds one property to the documents: reads a JSON object {prop, note, status?, row, findings?, modelled?} from stdin."""
import json, re, sys
d = json.load(sys.stdin)
pid = d["prop"]["id"]
lines = [l for l in open("properties.jsonl") if json.loads(l)["id"] != pid]
lines.append(json.dumps(d["prop"], ensure_ascii=False) + "\n")
open("properties.jsonl", "w").writelines(lines)
notes = json.load(open("tools/notes.json"))
notes[pid] = {"note": d["note"]}
if "status" in d:
    notes[pid]["status"] = d["status"]
json.dump(notes, open("tools/notes.json", "w"), indent=1, ensure_ascii=False)
text = open("DESIGN.md").read().split("\n")
rows = [i for i, l in enumerate(text) if re.match(r"\| C\d\d ", l)]
text.insert(rows[-1] + 1, d["row"])
if d.get("findings"):
    finds = [i for i, l in enumerate(text) if re.match(r"\* C\d\d", l)]
    i = finds[-1] + 1
    while text[i].startswith("  "):
        i += 1
    text[i:i] = d["findings"]
for after, row in d.get("modelled", []):
    i = [k for k, l in enumerate(text) if after in l][0]
    text.insert(i + 1, row)
open("DESIGN.md", "w").write("\n".join(text))

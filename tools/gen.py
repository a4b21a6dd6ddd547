import json, os, sys
sys.path.insert(0, os.path.dirname(__file__))
from props import P
root = os.path.join(os.path.dirname(__file__), "..")
ids = [x["id"] for x in P]; assert len(set(ids)) == len(ids)
with open(os.path.join(root, "properties.jsonl"), "w") as f:
    for x in P: f.write(json.dumps(x) + "\n")
print(len(P), "properties")
